import Verif.IO.Formats
import Verif.IO.DemoProps
import Mathlib.Data.List.Pairwise

/-!
# Excel workbooks, HDF5 stores, attributes and meta data come back
-/

namespace Verif.IO.Formats

open Verif.IO.Names

variable {S : Type}

/-! ## Tables -/

theorem run_get (op : Op S) (d : Dict Str S) (k : Str) : Dict.get? (op.run d) k = if op.key = k then op.value else Dict.get? d k := by
  cases op with
  | put q v =>
    simp only [Op.run, Op.key, Op.value, Dict.get?_set]
    by_cases h : q = k <;> simp [h]
  | del q =>
    simp only [Op.run, Op.key, Op.value, Dict.get?_erase]
    by_cases h : q = k <;> simp [h]

theorem ops_other (ops : List (Op S)) (d : Dict Str S) (k : Str) (h : ∀ op ∈ ops, op.key ≠ k) :
    Dict.get? (ops.foldl Op.run d) k = Dict.get? d k := by
  induction ops generalizing d with
  | nil => rfl
  | cons a ops ih =>
    rw [List.foldl_cons, ih _ (fun op ho => h op (List.mem_cons_of_mem _ ho)), run_get, if_neg (h a (List.mem_cons_self ..))]

theorem ops_get (ops : List (Op S)) (d : Dict Str S) (hn : (ops.map Op.key).Nodup) (op : Op S) (ho : op ∈ ops) :
    Dict.get? (ops.foldl Op.run d) op.key = op.value := by
  induction ops generalizing d with
  | nil => cases ho
  | cons a ops ih =>
    rw [List.map_cons, List.nodup_cons] at hn
    rw [List.foldl_cons]
    rcases List.mem_cons.1 ho with rfl | ho
    · rw [ops_other _ _ _ (fun b hb h => hn.1 (by rw [← h]; exact List.mem_map_of_mem hb)), run_get, if_pos rfl]
    · exact ih _ hn.2 ho

/-- Names that cannot be confused, for the classes of some list. -/
structure Apart (N : Naming) (lists : List Str) (first : List Str) : Prop where
  nodup : lists.Nodup
  first_nodup : first.Nodup
  static : ∀ l ∈ lists, ∀ l' ∈ lists, N.static l = N.static l' → l = l'
  series : ∀ l ∈ lists, ∀ l' ∈ lists, ∀ k k', N.pre l ++ k = N.pre l' ++ k' → l = l' ∧ k = k'
  mixed : ∀ l ∈ lists, ∀ l' ∈ lists, ∀ k, N.static l ≠ N.pre l' ++ k
  reserved : ∀ l ∈ lists, ∀ f ∈ "_temp".toList :: first, N.static l ≠ f ∧ ∀ k, N.pre l ++ k ≠ f
  temp : "_temp".toList ∉ first

theorem getSeries_get (N : Naming) (d : Dict Str S) (l k : Str) : Dict.get? (getSeries N d l) k = Dict.get? d (N.pre l ++ k) := by
  induction d with
  | nil => rfl
  | cons e d ih =>
    obtain ⟨q, v⟩ := e
    unfold getSeries at ih ⊢
    rw [Dict.get?_cons]
    by_cases hp : (N.pre l).isPrefixOf q = true
    · obtain ⟨r, hr⟩ := List.isPrefixOf_iff_prefix.1 hp
      subst hr
      have ha : after (N.pre l) (N.pre l ++ r) = some r := by
        unfold after
        rw [if_pos hp, List.drop_left]
      rw [List.filterMap_cons, ha]
      simp only [Option.map_some]
      rw [Dict.get?_cons, ih]
      by_cases hk : r = k
      · rw [if_pos hk, if_pos (by rw [hk])]
      · rw [if_neg hk, if_neg (fun h => hk (List.append_cancel_left h))]
    · have ha : after (N.pre l) q = none := by
        unfold after
        rw [if_neg hp]
      rw [List.filterMap_cons, ha]
      simp only [Option.map_none]
      rw [ih, if_neg]
      rintro rfl
      exact hp (List.isPrefixOf_iff_prefix.2 ⟨k, rfl⟩)

/-- Keys of the operations of a class. -/
def keysOf (N : Naming) (t : Cls S) : List Str :=
  N.static t.list :: if t.static.isSome then t.series.map (fun e => N.pre t.list ++ e.1) else []

theorem seriesOp_key (N : Naming) (l : Str) (e : Str × Option S) : (seriesOp N l e).key = N.pre l ++ e.1 ∧ (seriesOp N l e).value = e.2 := by
  unfold seriesOp
  cases e.2 <;> exact ⟨rfl, rfl⟩

theorem classOps_keys (N : Naming) (t : Cls S) : (classOps N t).map Op.key = keysOf N t := by
  unfold classOps keysOf
  cases t.static with
  | none => rfl
  | some v =>
    simp only [List.map_cons, Op.key, Option.isSome_some, if_true, List.map_map]
    congr 1
    exact List.map_congr_left (fun e _ => (seriesOp_key N t.list e).1)

theorem mem_keysOf (N : Naming) (t : Cls S) (q : Str) (h : q ∈ keysOf N t) : q = N.static t.list ∨ ∃ k, q = N.pre t.list ++ k := by
  unfold keysOf at h
  rcases List.mem_cons.1 h with h | h
  · exact .inl h
  · split_ifs at h
    · obtain ⟨e, _, rfl⟩ := List.mem_map.1 h
      exact .inr ⟨e.1, rfl⟩
    · cases h

theorem keysOf_nodup (N : Naming) (t : Cls S) {lists first : List Str} (h : Apart N lists first) (hl : t.list ∈ lists)
    (hs : (t.series.map (·.1)).Nodup) : (keysOf N t).Nodup := by
  unfold keysOf
  rw [List.nodup_cons]
  constructor
  · split_ifs
    · intro hm
      obtain ⟨e, _, he⟩ := List.mem_map.1 hm
      exact h.mixed _ hl _ hl e.1 he.symm
    · exact List.not_mem_nil
  · split_ifs
    · rw [show (fun e : Str × Option S => N.pre t.list ++ e.1) = (fun k => N.pre t.list ++ k) ∘ (·.1) from rfl, ← List.map_map]
      exact hs.map (fun a b hab => List.append_cancel_left hab)
    · exact List.nodup_nil

theorem allOps_nodup (N : Naming) (first : List (Str × S)) (ts : List (Cls S)) (h : Apart N (ts.map (·.list)) (first.map (·.1)))
    (hs : ∀ t ∈ ts, (t.series.map (·.1)).Nodup) : ((allOps N first ts).map Op.key).Nodup := by
  have hm : (allOps N first ts).map Op.key = first.map (·.1) ++ ts.flatMap (keysOf N) ++ ["_temp".toList] := by
    unfold allOps
    rw [List.map_append, List.map_append, List.map_map, List.map_flatMap]
    congr 2
    exact List.flatMap_congr (fun t _ => classOps_keys N t)
  rw [hm]
  have hcl : (ts.flatMap (keysOf N)).Nodup := by
    rw [List.nodup_flatMap]
    refine ⟨fun t ht => keysOf_nodup N t h (List.mem_map_of_mem ht) (hs t ht), ?_⟩
    have hn : ts.Pairwise (fun a b => a.list ≠ b.list) := List.pairwise_map.1 h.nodup
    refine hn.imp_of_mem (fun {a b} ha hb hab => ?_)
    intro q hqa hqb
    have hla := List.mem_map_of_mem (f := fun t : Cls S => t.list) ha
    have hlb := List.mem_map_of_mem (f := fun t : Cls S => t.list) hb
    rcases mem_keysOf N a q hqa with h1 | ⟨k, h1⟩ <;> rcases mem_keysOf N b q hqb with h2 | ⟨k', h2⟩
    · exact hab (h.static _ hla _ hlb (h1.symm.trans h2))
    · exact h.mixed _ hla _ hlb k' (h1.symm.trans h2)
    · exact h.mixed _ hlb _ hla k (h2.symm.trans h1)
    · exact hab (h.series _ hla _ hlb k k' (h1.symm.trans h2)).1
  have hres : ∀ q ∈ ts.flatMap (keysOf N), q ∉ "_temp".toList :: first.map (·.1) := by
    intro q hq hf
    obtain ⟨t, ht, hq⟩ := List.mem_flatMap.1 hq
    have hl := List.mem_map_of_mem (f := fun t : Cls S => t.list) ht
    have := h.reserved _ hl q hf
    rcases mem_keysOf N t q hq with h1 | ⟨k, h1⟩
    · exact this.1 h1.symm
    · exact this.2 k h1.symm
  rw [List.nodup_append, List.nodup_append]
  refine ⟨⟨h.first_nodup, hcl, ?_⟩, by simp, ?_⟩
  · intro a ha b hb hab
    subst hab
    exact hres a hb (List.mem_cons_of_mem _ ha)
  · intro a ha b hb hab
    rw [List.mem_singleton] at hb
    subst hb
    rcases List.mem_append.1 ha with h1 | h1
    · exact h.temp (hab ▸ h1)
    · exact hres a h1 (hab ▸ List.mem_cons_self ..)

theorem mem_of_lookup {A : Type} {l : List (Str × A)} {k : Str} {w : A} (h : l.lookup k = some w) : (k, w) ∈ l := by
  induction l with
  | nil => simp at h
  | cons e r ih =>
    obtain ⟨a, b⟩ := e
    rw [List.lookup_cons] at h
    by_cases hk : k = a
    · subst hk
      simp only [beq_self_eq_true] at h
      cases h
      exact List.mem_cons_self ..
    · rw [beq_false_of_ne hk] at h
      exact List.mem_cons_of_mem _ (ih h)

/-- **Tables come back.**  After an export into a file, whatever it held, the static table of each class is the one written, or none if the class
is empty; a series of a class with components is the one written, or none if nothing was to be written.  A series that the network does
not have is still the one of the older file. -/
theorem tables_back_partial (N : Naming) (old : Dict Str S) (first : List (Str × S)) (ts : List (Cls S))
    (h : Apart N (ts.map (·.list)) (first.map (·.1))) (hs : ∀ t ∈ ts, (t.series.map (·.1)).Nodup) (t : Cls S) (ht : t ∈ ts) :
    getStatic N (exportTables N old first ts) t.list = t.static ∧
      (t.static.isSome → ∀ k, Dict.get? (getSeries N (exportTables N old first ts) t.list) k =
        match t.series.lookup k with
        | some v => v
        | none => Dict.get? (getSeries N old t.list) k) ∧
      ∀ e ∈ first, Dict.get? (exportTables N old first ts) e.1 = some e.2 := by
  have hnd := allOps_nodup N first ts h hs
  have hop : ∀ op ∈ classOps N t, op ∈ allOps N first ts := fun op ho => by
    unfold allOps
    exact List.mem_append_left _ (List.mem_append_right _ (List.mem_flatMap.2 ⟨t, ht, ho⟩))
  have hl := List.mem_map_of_mem (f := fun t : Cls S => t.list) ht
  refine ⟨?_, ?_, ?_⟩
  · unfold getStatic exportTables
    cases hst : t.static with
    | none =>
      have := ops_get (allOps N first ts) old hnd (.del (N.static t.list)) (hop _ (by unfold classOps; rw [hst]; exact List.mem_singleton_self _))
      exact this
    | some v =>
      have := ops_get (allOps N first ts) old hnd (.put (N.static t.list) v) (hop _ (by unfold classOps; rw [hst]; exact List.mem_cons_self ..))
      exact this
  · intro hst k
    obtain ⟨v, hv⟩ := Option.isSome_iff_exists.1 hst
    rw [getSeries_get, getSeries_get]
    have hcls : classOps N t = .put (N.static t.list) v :: t.series.map (seriesOp N t.list) := by unfold classOps; rw [hv]
    cases hlk : t.series.lookup k with
    | some w =>
      have hmem : (k, w) ∈ t.series := mem_of_lookup hlk
      have h1 := seriesOp_key N t.list (k, w)
      have := ops_get (allOps N first ts) old hnd (seriesOp N t.list (k, w)) (hop _ (by
        rw [hcls]; exact List.mem_cons_of_mem _ (List.mem_map_of_mem hmem)))
      rw [h1.1, h1.2] at this
      exact this
    | none =>
      refine ops_other _ _ _ (fun op ho hk => ?_)
      unfold allOps at ho
      rcases List.mem_append.1 ho with ho | ho
      · rcases List.mem_append.1 ho with ho | ho
        · obtain ⟨e, he, rfl⟩ := List.mem_map.1 ho
          exact (h.reserved _ hl e.1 (List.mem_cons_of_mem _ (List.mem_map_of_mem he))).2 k hk.symm
        · obtain ⟨u, hu, ho⟩ := List.mem_flatMap.1 ho
          have hlu := List.mem_map_of_mem (f := fun t : Cls S => t.list) hu
          have hku : op.key ∈ keysOf N u := by rw [← classOps_keys]; exact List.mem_map_of_mem ho
          rcases mem_keysOf N u op.key hku with h2 | ⟨k', h2⟩
          · exact h.mixed _ hlu _ hl k (h2.symm.trans hk)
          · have hut : u.list = t.list := (h.series _ hlu _ hl k' k (h2.symm.trans hk)).1
            have hut : u = t := List.inj_on_of_nodup_map h.nodup hu ht hut
            subst hut
            unfold keysOf at hku
            rcases List.mem_cons.1 hku with h3 | h3
            · exact h.mixed _ hl _ hl k (h3.symm.trans hk)
            · rw [if_pos hst] at h3
              obtain ⟨e, he, h4⟩ := List.mem_map.1 h3
              have h5 : e.1 = k := List.append_cancel_left (h4.trans hk)
              have := List.lookup_eq_none_iff.1 hlk e he
              rw [h5] at this
              simp at this
      · rw [List.mem_singleton] at ho
        subst ho
        exact (h.reserved _ hl _ (List.mem_cons_self ..)).2 k hk.symm
  · intro e he
    have := ops_get (allOps N first ts) old hnd (.put e.1 e.2) (by
      unfold allOps
      exact List.mem_append_left _ (List.mem_append_left _ (List.mem_map_of_mem (f := fun e : Str × S => Op.put e.1 e.2) he)))
    exact this

/-- What is before the first separator. -/
theorem split_at_sep {c : Char} {a b x y : Str} (ha : c ∉ a) (hb : c ∉ b) (h : a ++ c :: x = b ++ c :: y) : a = b ∧ x = y := by
  induction a generalizing b with
  | nil =>
    cases b with
    | nil => simpa using h
    | cons d b => simp only [List.nil_append, List.cons_append, List.cons.injEq] at h; exact absurd (h.1 ▸ List.mem_cons_self ..) hb
  | cons d a ih =>
    cases b with
    | nil => simp only [List.nil_append, List.cons_append, List.cons.injEq] at h; exact absurd (h.1 ▸ List.mem_cons_self ..) ha
    | cons e b =>
      simp only [List.cons_append, List.cons.injEq] at h
      have := ih (fun hc => ha (List.mem_cons_of_mem _ hc)) (fun hc => hb (List.mem_cons_of_mem _ hc)) h.2
      exact ⟨by rw [h.1, this.1], this.2⟩

/-- Sheets cannot be confused if no name of a class has a hyphen or is the name of one of the first sheets. -/
theorem excel_apart (lists first : List Str) (h1 : lists.Nodup) (h2 : first.Nodup) (h3 : ∀ l ∈ lists, '-' ∉ l ∧ l ≠ "_temp".toList ∧ l ∉ first)
    (h4 : ∀ f ∈ first, '-' ∉ f ∧ f ≠ "_temp".toList) : Apart excel lists first := by
  have htemp : '-' ∉ "_temp".toList := by decide +kernel
  have hf : ∀ f ∈ "_temp".toList :: first, '-' ∉ f := by
    intro f hf
    rcases List.mem_cons.1 hf with rfl | hf
    · exact htemp
    · exact (h4 f hf).1
  refine ⟨h1, h2, fun l _ l' _ h => h, ?_, ?_, ?_, fun h => (h4 _ h).2 rfl⟩
  · intro l hl l' hl' k k' h
    simp only [excel, List.append_assoc, List.singleton_append] at h
    exact split_at_sep (h3 l hl).1 (h3 l' hl').1 h
  · intro l hl l' _ k h
    simp only [excel, List.append_assoc, List.singleton_append] at h
    exact (h3 l hl).1 (h ▸ List.mem_append_right _ (List.mem_cons_self ..))
  · intro l hl f hff
    refine ⟨fun h => ?_, fun k h => ?_⟩
    · rcases List.mem_cons.1 hff with rfl | hm
      · exact (h3 l hl).2.1 h
      · exact (h3 l hl).2.2 (show l ∈ first from (show l = f from h) ▸ hm)
    · simp only [excel, List.append_assoc, List.singleton_append] at h
      exact hf f hff (h ▸ List.mem_append_right _ (List.mem_cons_self ..))

/-- Keys of an HDF5 store cannot be confused if no name of a class has a slash; the first tables are called `/` and a name. -/
theorem hdf5_apart (lists : List Str) (first : List Str) (h1 : lists.Nodup) (h2 : first.Nodup) (h3 : ∀ l ∈ lists, '/' ∉ l ∧ l ∉ first)
    (h4 : ∀ f ∈ first, '/' ∉ f) : Apart hdf5 lists (first.map (fun f => '/' :: f)) := by
  have ht : "_t/".toList = ['_', 't', '/'] := by decide +kernel
  have htemp : "_temp".toList = ['_', 't', 'e', 'm', 'p'] := by decide +kernel
  have hns : ∀ l ∈ lists, '/' ∉ l ++ ['_', 't'] := by
    intro l hl hm
    rcases List.mem_append.1 hm with hm | hm
    · exact (h3 l hl).1 hm
    · revert hm; decide
  have hpre : ∀ l k, hdf5.pre l ++ k = '/' :: ((l ++ ['_', 't']) ++ '/' :: k) := by
    intro l k
    simp [hdf5, ht]
  refine ⟨h1, h2.map (fun a b hab => (List.cons.inj hab).2), ?_, ?_, ?_, ?_, ?_⟩
  · intro l _ l' _ h
    exact (List.cons.inj h).2
  · intro l hl l' hl' k k' h
    rw [hpre, hpre] at h
    have := split_at_sep (hns l hl) (hns l' hl') (List.cons.inj h).2
    exact ⟨List.append_cancel_right this.1, this.2⟩
  · intro l hl l' _ k h
    rw [hpre] at h
    have : l = l' ++ ['_', 't'] ++ '/' :: k := (List.cons.inj h).2
    exact (h3 l hl).1 (this ▸ List.mem_append_right _ (List.mem_cons_self ..))
  · intro l hl f hff
    refine ⟨fun h => ?_, fun k h => ?_⟩
    · rcases List.mem_cons.1 hff with rfl | hm
      · rw [htemp] at h
        exact absurd (List.cons.inj h).1 (by decide)
      · obtain ⟨g, hg, rfl⟩ := List.mem_map.1 hm
        exact (h3 l hl).2 ((List.cons.inj h).2 ▸ hg)
    · rw [hpre] at h
      rcases List.mem_cons.1 hff with rfl | hm
      · rw [htemp] at h
        exact absurd (List.cons.inj h).1 (by decide)
      · obtain ⟨g, hg, rfl⟩ := List.mem_map.1 hm
        have := (List.cons.inj h).2
        exact h4 g hg (this ▸ List.mem_append_right _ (List.mem_cons_self ..))
  · intro hm
    obtain ⟨g, _, hg⟩ := List.mem_map.1 hm
    rw [htemp] at hg
    exact absurd (List.cons.inj hg).1 (by decide)

/-! ## Workbooks and networks -/

/-- **Excel.**  A network that is exported over any older workbook, whose series are of attributes of the network, is read as
in `export_import_partial`; components of classes that are empty now are not read again. -/
theorem excel_over_older_partial {V : Type} [DecidableEq V] (cfg : Setup V) (n : Verif.Network.Network V) (h : Exportable cfg n) (old : Store V)
    (hseries : ∀ c k, (Dict.get? (old.series c) k).isSome → (Dict.get? (n.comps c).dyn k).isSome)
    (hkeys : ∀ c, (Dict.keys (old.series c)).Nodup) (hother : ∀ c, c ∉ cfg.classes → old.static c = none) :
    ∃ st m, exportExcel cfg old n = .ok st ∧ importFrom cfg (fresh cfg cfg.exportStd) st = .ok m ∧ m.snaps = n.snaps ∧
      ∀ c ∈ cfg.classes, (m.comps c).names.Nodup ∧ (∀ x, x ∈ (m.comps c).names ↔ x ∈ (n.comps c).names) ∧
        ∀ x ∈ (n.comps c).names, ∀ k, k ∉ calculated →
          (cfg.sch.seriesOnly c k = false → (m.comps c).sval x k = (n.comps c).sval x k) ∧
          (cfg.skipTime = false → ¬ AllDefault cfg.sch n c k x →
            ∀ s ∈ n.snaps, Verif.Network.effective cfg.sch m c k s x = Verif.Network.effective cfg.sch n c k s x) := by
  have ho : Replaced cfg { old with static := fun c => if c ∈ cfg.classes ∧ keptNames cfg n c = [] then none else old.static c } n := by
    refine ⟨fun c hc => ?_, hseries, hkeys, fun c hc => ?_⟩
    · simp only
      by_cases hm : c ∈ cfg.classes
      · rw [if_pos ⟨hm, by rw [own_eq]; exact hc⟩]
      · rw [if_neg (fun hh => hm hh.1)]
        exact hother c hm
    · simp only
      rw [if_neg (fun hh => hc hh.1)]
      exact hother c hc
  obtain ⟨st, m, e1, e2, e3, _, _, _, _, e8⟩ := export_import_partial cfg n h _ ho
  refine ⟨st, m, e1, e2, e3, fun c hc => ⟨(e8 c hc).1, (e8 c hc).2.1, fun x hx k hk => ?_⟩⟩
  have := (e8 c hc).2.2.1 x hx k hk
  exact ⟨this.1, fun ht hn s hs => ((this.2 s hs).2 ht).2 hn⟩

/-! ## Positions -/

/-- **HDF5.**  Columns of a series come back under their names. -/
theorem columns_back (names cols : List String) (hn : names.Nodup) (hc : ∀ x ∈ cols, x ∈ names) :
    (positions names cols).bind (columns names) = some cols := by
  unfold positions columns
  rw [if_pos hn, Option.bind_some]
  induction cols with
  | nil => rfl
  | cons x cols ih =>
    have hx := hc x (List.mem_cons_self ..)
    have h1 : pyGet names (if x ∈ names then (names.idxOf x : Int) else -1) = some x := by
      rw [if_pos hx]
      unfold pyGet
      rw [if_pos (Int.natCast_nonneg _), Int.toNat_natCast]
      have hlt := List.idxOf_lt_length_iff.2 hx
      rw [List.getElem?_eq_getElem hlt, List.getElem_idxOf]
    rw [List.map_cons, List.mapM_cons, h1, ih (fun y hy => hc y (List.mem_cons_of_mem _ hy))]
    rfl

/-- A column that is not a component of the class is read as the last component. -/
theorem stray_column (names : List String) (hn : names.Nodup) (hne : names ≠ []) (x : String) (hx : x ∉ names) :
    (positions names [x]).bind (columns names) = some [names.getLast hne] := by
  unfold positions columns
  rw [if_pos hn, Option.bind_some]
  have hpos : 0 < names.length := List.length_pos_of_ne_nil hne
  have h1 : pyGet names (-1) = some (names.getLast hne) := by
    unfold pyGet
    rw [if_neg (by decide), if_pos (by omega), List.getLast_eq_getElem]
    have : ((names.length : Int) + -1).toNat = names.length - 1 := by omega
    rw [this, List.getElem?_eq_getElem (by omega)]
  rw [List.map_cons, if_neg hx, List.map_nil, List.mapM_cons, h1]
  rfl

/-! ## Meta data -/

/-- **Meta data** in Excel: numbers and truth values come back, and so do dictionaries. -/
theorem excel_meta_back (T : Text) (v : Json)
    (h : (∃ q, v = .num q) ∨ (∃ b, v = .bool b) ∨ ∃ l, v = .obj l ∧ T.loads (T.dumps v) = some v ∧ T.dumps v ∉ Csv.missing) :
    cellMeta T (metaCell T v) = some v := by
  rcases h with ⟨q, rfl⟩ | ⟨b, rfl⟩ | ⟨l, rfl, h1, h2⟩
  · rfl
  · rfl
  · simp only [metaCell, cellMeta]
    rw [if_neg h2, h1]

/-- A text comes back exactly if it does not stand for a missing value and is not the JSON text of anything else. -/
theorem excel_meta_text (T : Text) (s : String) :
    cellMeta T (metaCell T (.str s)) = some (.str s) ↔ s ∉ Csv.missing ∧ ∀ j, T.loads s = some j → j = .str s := by
  simp only [metaCell, cellMeta]
  by_cases hs : s ∈ Csv.missing
  · simp [hs]
  · rw [if_neg hs]
    cases hl : T.loads s with
    | none => simp [hs]
    | some j => simp [hs]

/-- A text that reads as a number comes back as a number, and `None` as NaN. -/
theorem excel_meta_changes (T : Text) (s : String) (q : Rat) (hs : s ∉ Csv.missing) (hl : T.loads s = some (.num q)) :
    cellMeta T (metaCell T (.str s)) = some (.num q) ∧ cellMeta T (metaCell T .null) = none := by
  simp only [metaCell, cellMeta]
  rw [if_neg hs, hl]
  exact ⟨rfl, trivial⟩

/-! ## Attributes -/

/-- Values that a format keeps. -/
def Keeps (R : Csv.Reader) (f : Format) : AVal → Prop
  | .text s => f = .netcdf ∨ f = .hdf5 ∨ s ∉ Csv.missing ∧ (f = .excel ∨ f = .csv ∧ R.int? s = none ∧ R.float? s = none)
  | _ => True

theorem readBack_keeps (R : Csv.Reader) (f : Format) (v : AVal) (h : Keeps R f v) : readBack R f v = v := by
  cases v with
  | nan => rfl
  | num q => rfl
  | text s =>
    unfold Keeps at h
    rcases h with rfl | rfl | ⟨hs, rfl | ⟨rfl, h1, h2⟩⟩
    · rfl
    · rfl
    · simp only [readBack]
      rw [if_neg hs]
    · have h3 : Csv.infer R [s] = [.text s] := by
        unfold Csv.infer
        rw [if_neg (by simp [Csv.isInts, h1]), if_neg (by simp [Csv.isFloats, Csv.present, hs, h2])]
        simp [hs]
      simp only [readBack, h3]

/-- **Attributes of the network**, such as its name and the value of the objective, come back in a new network. -/
theorem attrs_back_partial (R : Csv.Reader) (f : Format) (l : List NetAttr) (hn : (l.map (·.name)).Nodup) (a : NetAttr) (ha : a ∈ l)
    (h1 : a.name.startsWith "__" = false) (h2 : a.settable = true) (h3 : a.name ≠ "pypsa_version") (h4 : Keeps R f a.value)
    (base : String → AVal) : readAttrs R f (written l) base a.name = a.value := by
  have hlk : (written l).lookup a.name = some a.value := by
    unfold written
    induction l with
    | nil => cases ha
    | cons b l ih =>
      rw [List.map_cons, List.nodup_cons] at hn
      rcases List.mem_cons.1 ha with rfl | hm
      · rw [List.filter_cons, if_pos (by simp [h1, h2]), List.map_cons, List.lookup_cons]
        simp
      · have hne : a.name ≠ b.name := fun h => hn.1 (h ▸ List.mem_map_of_mem hm)
        rw [List.filter_cons]
        split_ifs
        · rw [List.map_cons, List.lookup_cons, beq_false_of_ne hne]
          exact ih hn.2 hm
        · exact ih hn.2 hm
  unfold readAttrs
  rw [if_neg h3, hlk]
  exact readBack_keeps R f _ h4

/-- A network without a name is called NaN after reading it from a folder or workbook. -/
theorem unnamed_is_nan (R : Csv.Reader) (f : Format) (hf : f = .csv ∨ f = .excel) (rest : List NetAttr) (base : String → AVal) :
    readAttrs R f (written (⟨"name", .text "", true⟩ :: rest)) base "name" = .nan := by
  have hw : written (⟨"name", .text "", true⟩ :: rest) = ("name", .text "") :: written rest := by
    unfold written
    rw [List.filter_cons, if_pos (by decide +kernel)]
    rfl
  unfold readAttrs
  rw [if_neg (by decide), hw, List.lookup_cons]
  simp only [beq_self_eq_true]
  rcases hf with rfl | rfl
  · have : Csv.infer R [""] = [.na] := by
      unfold Csv.infer
      rw [if_neg (by simp [Csv.isInts, Csv.missing]), if_pos (by simp [Csv.isFloats, Csv.present, Csv.missing])]
      simp [Csv.missing]
    simp only [readBack, this]
  · simp only [readBack]
    rw [if_pos (by simp [Csv.missing])]

/-- The argument `name` of `Network` has no effect if a file is read that has a name. -/
theorem name_argument_ignored (R : Csv.Reader) (f : Format) (file : List (String × AVal)) (v : AVal) (hv : file.lookup "name" = some v)
    (name : String) (base : String → AVal) : initAttrs R f file name [] base "name" = readBack R f v := by
  unfold initAttrs readAttrs
  simp [hv]

/-! ## Examples -/

namespace Demo

/-- Sheets that are written first (416-442). -/
def firstSheets : List Str := ["network", "crs", "meta", "snapshots", "investment_periods"].map String.toList

/-- The list names of the built-in classes. -/
def lists : List Str :=
  ["buses", "carriers", "global_constraints", "lines", "line_types", "transformers", "transformer_types", "links", "loads",
    "generators", "storage_units", "stores", "shunt_impedances", "shapes"].map String.toList

theorem excel_builtin : Apart excel lists firstSheets :=
  excel_apart _ _ (by decide +kernel) (by decide +kernel) (by decide +kernel) (by decide +kernel)

theorem hdf5_builtin : Apart hdf5 lists (firstSheets.map (fun f => '/' :: f)) :=
  hdf5_apart _ _ (by decide +kernel) (by decide +kernel) (by decide +kernel) (by decide +kernel)

/-- Buses without series, generators with one series of two; there are no lines any more. -/
def some_ : List (Cls Nat) :=
  [⟨"buses".toList, some 1, []⟩, ⟨"generators".toList, some 2, [("p_set".toList, some 3), ("p".toList, none)]⟩, ⟨"lines".toList, none, []⟩]

def firsts : List (Str × Nat) := firstSheets.map (fun f => (f, 0))

/-- An older workbook with lines, with both series, and with a series of another attribute. -/
def older : Dict Str Nat :=
  [("lines".toList, 7), ("generators-p".toList, 8), ("generators-extra".toList, 9), ("_temp".toList, 0)]

example (t : Cls Nat) (ht : t ∈ some_) := tables_back_partial excel older firsts some_
  (excel_apart _ _ (by decide +kernel) (by decide +kernel) (by decide +kernel) (by decide +kernel)) (by decide +kernel) t ht

/-- Lines and the series `p` are gone; the series `extra` of the older workbook is read for the new generators. -/
theorem extra_sheet_read :
    getStatic excel (exportTables excel older firsts some_) "lines".toList = none ∧
      getSeries excel (exportTables excel older firsts some_) "generators".toList = [("extra".toList, 9), ("p_set".toList, 3)] := by
  decide +kernel

example : (positions ["a", "b", "c"] ["c", "a"]).bind (columns ["a", "b", "c"]) = some ["c", "a"] :=
  columns_back _ _ (by decide) (by decide)

example : positions ["a", "b", "c"] ["c", "a"] = some [2, 0] := by decide +kernel

example : (positions ["a", "b"] ["z"]).bind (columns ["a", "b"]) = some ["b"] := stray_column ["a", "b"] (by decide) (by decide) "z" (by decide)

/-- Texts of a year and of a dictionary. -/
def texts : Text where
  dumps := fun j => match j with
    | .obj [] => "{}"
    | _ => "2030"
  loads := fun s => if s = "2030" then some (.num 2030) else if s = "{}" then some (.obj []) else none
  show_ := fun _ => "[]"

example : cellMeta texts (metaCell texts (.obj [])) = some (.obj []) := excel_meta_back texts _ (.inr (.inr ⟨[], rfl, rfl, by decide +kernel⟩))

/-- The text `2030` comes back as a number, the text `high` as it is, and the text `None` not at all. -/
example : cellMeta texts (metaCell texts (.str "2030")) = some (.num 2030) ∧ cellMeta texts (metaCell texts (.str "high")) = some (.str "high") ∧
    cellMeta texts (metaCell texts (.str "None")) = none :=
  ⟨(excel_meta_changes texts "2030" 2030 (by decide +kernel) rfl).1, (excel_meta_text texts "high").2 ⟨by decide +kernel, fun j hj => by
    simp [texts] at hj⟩, rfl⟩

/-- No text is a number. -/
def reader : Csv.Reader := ⟨fun _ => none, fun _ => none, fun _ => "", fun _ => ""⟩

def attrs : List NetAttr := [⟨"name", .text "north", true⟩, ⟨"objective", .num 5, true⟩, ⟨"pypsa_version", .text "0.34.1", true⟩, ⟨"has_periods", .num 0, false⟩]

example : readAttrs reader .csv (written attrs) (fun _ => .nan) "name" = .text "north" :=
  attrs_back_partial reader .csv attrs (by decide) ⟨"name", .text "north", true⟩ (by simp [attrs]) (by decide +kernel) rfl (by decide)
    (.inr (.inr ⟨by decide +kernel, .inr ⟨rfl, rfl, rfl⟩⟩)) _

example : initAttrs reader .netcdf (written attrs) "south" [] (fun _ => .nan) "name" = .text "north" :=
  name_argument_ignored reader .netcdf (written attrs) (.text "north") (by decide +kernel) "south" _

/-- An older export with a line type of its own. -/
def oldStore : Store Verif.Network.Val :=
  { (empty : Store Verif.Network.Val) with static := fun c => if c = "LineType" then some ⟨["z"], ["r"], fun _ _ => some (.num 1)⟩ else none }

example := excel_over_older_partial Verif.IO.Demo.cfg Verif.IO.Demo.plain Verif.IO.Demo.plain_exportable oldStore (by simp [oldStore, empty])
  (by simp [oldStore, empty, Dict.keys]) (by
    intro c hc
    have : c ≠ "LineType" := fun h => hc (h ▸ by decide +kernel)
    simp [oldStore, this])

def excelTrip (old : Store Verif.Network.Val) (n : Verif.Network.Network Verif.Network.Val) : Except Verif.Network.Err (Verif.Network.Network Verif.Network.Val) :=
  match exportExcel Verif.IO.Demo.cfg old n with
  | .error e => .error e
  | .ok st => importFrom Verif.IO.Demo.cfg (fresh Verif.IO.Demo.cfg false) st

/-- From the workbook only the standard type is read, from the folder the older one as well. -/
theorem folder_and_workbook :
    Verif.IO.Demo.namesOf (excelTrip oldStore Verif.IO.Demo.plain) "LineType" = ["a"] ∧
      Verif.IO.Demo.namesOf (Verif.IO.Demo.trip Verif.IO.Demo.cfg oldStore Verif.IO.Demo.plain) "LineType" = ["a", "z"] := by
  decide +kernel

end Demo

end Verif.IO.Formats
