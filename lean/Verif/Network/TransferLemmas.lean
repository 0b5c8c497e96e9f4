import Verif.Network.Props
import Verif.Network.Transfer

/-! # Lemmas about copying static and dynamic data between networks -/

namespace Verif.Network

variable {V : Type}

/-- The columns `cols` are exactly the static attributes (known or custom) of `n`, and a
missing value only occurs where the default is missing too. -/
structure Fits (sch : Schema V) (cols : Cls → List Attr) (n : Network V) : Prop where
  cols_nodup : ∀ c, (cols c).Nodup
  cols_static : ∀ c, ∀ k ∈ cols c, sch.seriesOnly c k = false
  cols_all : ∀ c k, k ∉ cols c → sch.seriesOnly c k = true ∨ sch.spec? c k = none
  outside : ∀ c k, k ∉ cols c → ∀ x ∈ (n.comps c).names, sch.seriesOnly c k = false →
    (n.comps c).sval x k = none
  clean : ∀ c, ∀ k ∈ cols c, ∀ x ∈ (n.comps c).names, (n.comps c).sval x k = none →
    sch.dflt c k = none
  dyn_keys : ∀ c, (Dict.keys (n.comps c).dyn).Nodup

theorem castName_empty (x : Name) : castName "" x = x := by
  simp [castName]

theorem processArgs_staticKwargs (snaps : List Snap) (x : Comp V) (names : List Name)
    (hn : names.Nodup) (cols : List Attr) :
    ∃ st : StaticArgs V, processArgs snaps names "" false (staticKwargs x names cols) = .ok (st, []) ∧
      Dict.keys st = cols ∧
      ∀ k f, Dict.get? st k = some f → ∀ y ∈ names, f y = x.sval y k := by
  induction cols with
  | nil => exact ⟨[], rfl, rfl, by simp⟩
  | cons k cols ih =>
    obtain ⟨st, h1, h2, h3⟩ := ih
    have hidx : names.map (castName "") = names := by
      rw [show castName "" = id from funext castName_empty, List.map_id]
    have hlab : ∀ y ∈ names, labelled names (names.map (fun y => x.sval y k)) y = x.sval y k := by
      intro y hy
      obtain ⟨i, hi⟩ := List.getElem?_of_mem hy
      unfold labelled
      rw [get?_zip names _ i y (x.sval y k) hn hi (by simp [hi])]
    obtain ⟨f, hf, hfv⟩ : ∃ f, processArg snaps names "" false
        (.seriesN names (names.map (fun y => x.sval y k))) = .ok (.static f) ∧
        ∀ y ∈ names, f y = x.sval y k := by
      simp only [processArg, Bool.false_eq_true, if_false, hidx, List.length_map, and_self, if_true]
      split
      · rename_i v hv
        refine ⟨_, rfl, ?_⟩
        intro y hy
        have : names.map (fun y => x.sval y k) = [v] := hv
        obtain ⟨a, rfl, ha⟩ := List.map_eq_singleton_iff.1 this
        simp only [List.mem_singleton] at hy
        subst hy; exact ha.symm
      · exact ⟨_, rfl, hlab⟩
    refine ⟨(k, f) :: st, ?_, ?_, ?_⟩
    · have : staticKwargs x names (k :: cols) =
        (k, .seriesN names (names.map (fun y => x.sval y k))) :: staticKwargs x names cols := rfl
      rw [this]
      simp only [processArgs, hf, h1]
    · simp only [Dict.keys, List.map_cons] at h2 ⊢
      rw [h2]
    · intro k' f' hf' y hy
      rw [Dict.get?_cons] at hf'
      split at hf'
      · rename_i hkk
        simp only [Option.some.injEq] at hf'
        subst hf'; subst hkk
        exact hfv y hy
      · exact h3 k' f' hf' y hy

/-- What `n.add(c, static.index, **static)` does for new names. -/
theorem addStatic_spec (sch : Schema V) (n : Network V) (h : WF sch n) (c : Cls) (x : Comp V)
    (names : List Name) (hn : names.Nodup) (hd : ∀ y ∈ names, y ∉ (n.comps c).names)
    (cols : List Attr) (hc : cols.Nodup) (hs : ∀ k ∈ cols, sch.seriesOnly c k = false) :
    ∃ m, add sch n c names "" false false (staticKwargs x names cols) = .ok m ∧
      WF sch m ∧ m.snaps = n.snaps ∧ m.w = n.w ∧ m.pw = n.pw ∧
      (∀ c', c' ≠ c → m.comps c' = n.comps c') ∧
      (m.comps c).names = (n.comps c).names ++ names ∧
      (∀ k, Dict.get? (m.comps c).dyn k = Dict.get? (n.comps c).dyn k) ∧
      (∀ y, y ∉ names → (m.comps c).sval y = (n.comps c).sval y) ∧
      ∀ y ∈ names, ∀ k, (m.comps c).sval y k =
        if sch.seriesOnly c k then none
        else if k ∈ cols then (x.sval y k).or (sch.dflt c k) else sch.dflt c k := by
  obtain ⟨st, h1, h2, h3⟩ := processArgs_staticKwargs n.snaps x names hn cols
  have hmap : names.map (· ++ "") = names := by simp
  have hadd : add sch n c names "" false false (staticKwargs x names cols) =
      .ok (importComponents sch n c names st false) := by
    unfold add
    simp only [hmap, hn, not_true_eq_false, if_false, h1, List.foldl_nil]
  have hks : (Dict.keys st).Nodup := by rw [h2]; exact hc
  have hnew : names.filter (fun y => decide (y ∉ (n.comps c).names.filter
      (fun y => decide (y ∈ names)))) = names := by
    rw [List.filter_eq_self]
    intro y hy
    simp only [decide_eq_true_eq, List.mem_filter, not_and]
    exact fun h' => absurd h' (hd y hy)
  refine ⟨_, hadd, importComponents_wf sch n c names st false h hn hks, rfl, rfl, rfl,
    fun c' hc' => importComponents_ne _ _ _ _ hc' _ _ _, ?_, ?_, ?_, ?_⟩
  · rw [importComponents_names]
    simp only [namesAfter, Bool.false_eq_true, if_false, hnew]
  · intro k
    rw [importComponents_get? _ _ _ _ _ _ hks, if_neg]
    rw [h2]
    rintro ⟨hk1, hk2⟩
    rw [hs k hk1] at hk2
    exact absurd hk2 (by simp)
  · intro y hy
    funext k
    simp only [importComponents, setComp_self, Bool.false_eq_true, if_false, hnew, hy]
  · intro y hy k
    simp only [importComponents, setComp_self, Bool.false_eq_true, if_false, hnew, hy, if_true]
    by_cases hso : sch.seriesOnly c k = true
    · simp [hso]
    · simp only [hso, Bool.false_eq_true, if_false]
      unfold cleaned
      by_cases hk : k ∈ cols
      · have : k ∈ Dict.keys st := by rw [h2]; exact hk
        obtain ⟨f, hf⟩ := Option.isSome_iff_exists.1 ((Dict.mem_keys_iff _ _).1 this)
        simp only [hf, hk, if_true, h3 k f hf y hy]
        cases x.sval y k with
        | some v => rfl
        | none => rfl
      · have hg : Dict.get? st k = none := by
          cases hh : Dict.get? st k with
          | none => rfl
          | some _ =>
            have := (Dict.mem_keys_iff st k).2 (by simp [hh])
            rw [h2] at this
            exact absurd this hk
        simp only [hg, hk, if_false]
        unfold Schema.dflt
        unfold Schema.seriesOnly at hso
        cases hsp : sch.spec? c k with
        | none => rfl
        | some a =>
          simp only [hsp, Bool.not_eq_true', Bool.not_eq_false] at hso
          simp [hso]

theorem addStatics_spec (sch : Schema V) (cols : Cls → List Attr) (src : Network V)
    (hsrc : ∀ c, (src.comps c).names.Nodup)
    (hc : ∀ c, (cols c).Nodup) (hs : ∀ c, ∀ k ∈ cols c, sch.seriesOnly c k = false)
    (sel : Cls → Name → Bool) (cs : List Cls) (hcs : cs.Nodup) (n : Network V) (h : WF sch n)
    (hempty : ∀ c ∈ cs, (n.comps c).names = []) :
    ∃ m, addStatics sch cols src sel cs n = .ok m ∧
      WF sch m ∧ m.snaps = n.snaps ∧ m.w = n.w ∧ m.pw = n.pw ∧
      (∀ c, c ∉ cs → m.comps c = n.comps c) ∧
      ∀ c ∈ cs, (m.comps c).names = (src.comps c).names.filter (sel c) ∧
        (∀ k, Dict.get? (m.comps c).dyn k = Dict.get? (n.comps c).dyn k) ∧
        ∀ y ∈ (src.comps c).names.filter (sel c), ∀ k, (m.comps c).sval y k =
          if sch.seriesOnly c k then none
          else if k ∈ cols c then ((src.comps c).sval y k).or (sch.dflt c k)
          else sch.dflt c k := by
  induction cs generalizing n with
  | nil => exact ⟨n, rfl, h, rfl, rfl, rfl, fun _ _ => rfl, by simp⟩
  | cons c cs ih =>
    simp only [List.nodup_cons] at hcs
    obtain ⟨m1, a1, a2, a3, a4, a5, a6, a7, a8, a9, a10⟩ :=
      addStatic_spec sch n h c (src.comps c) ((src.comps c).names.filter (sel c))
        ((hsrc c).filter _) (by rw [hempty c (by simp)]; simp) (cols c) (hc c) (hs c)
    obtain ⟨m, b1, b2, b3, b4, b5, b6, b7⟩ := ih hcs.2 m1 a2 (by
      intro c' hc'
      have hne : c' ≠ c := fun h' => hcs.1 (h' ▸ hc')
      rw [a6 c' hne]; exact hempty c' (by simp [hc']))
    refine ⟨m, ?_, b2, b3.trans a3, b4.trans a4, b5.trans a5, ?_, ?_⟩
    · simp only [addStatics, a1, b1]
    · intro c' hc'
      simp only [List.mem_cons, not_or] at hc'
      rw [b6 c' hc'.2, a6 c' hc'.1]
    · intro c' hc'
      rcases List.mem_cons.1 hc' with rfl | hc'
      · rw [b6 c' hcs.1]
        refine ⟨?_, a8, a10⟩
        rw [a7, hempty c' (by simp), List.nil_append]
      · obtain ⟨b71, b72, b73⟩ := b7 c' hc'
        have hne : c' ≠ c := fun h' => hcs.1 (h' ▸ hc')
        refine ⟨b71, ?_, b73⟩
        intro k; rw [b72, a6 c' hne]

theorem foldl_set_get? {K W : Type} [DecidableEq K] (l : Dict K W) (g : W → W) (d : Dict K W)
    (hn : (Dict.keys l).Nodup) (k : K) :
    Dict.get? (l.foldl (fun d e => Dict.set d e.1 (g e.2)) d) k =
      ((Dict.get? l k).map g).or (Dict.get? d k) := by
  induction l generalizing d with
  | nil => rfl
  | cons e l ih =>
    simp only [Dict.keys, List.map_cons, List.nodup_cons] at hn
    rw [List.foldl_cons, ih _ hn.2, Dict.get?_cons]
    by_cases hk : e.1 = k
    · subst hk
      have : Dict.get? l e.1 = none := by
        cases hh : Dict.get? l e.1 with
        | none => rfl
        | some _ => exact absurd ((Dict.mem_keys_iff _ _).2 (by simp [hh])) hn.1
      simp [this, Dict.get?_set_self]
    · simp only [hk, if_false]
      cases Dict.get? l k with
      | some f => rfl
      | none => simp only [Option.map_none, Option.none_or]; rw [Dict.get?_set_ne _ _ hk]

theorem copyDyn_get? (snaps : List Snap) (src dst : Comp V) (hn : (Dict.keys src.dyn).Nodup)
    (k : Attr) : Dict.get? (copyDyn snaps src dst).dyn k =
      ((Dict.get? src.dyn k).map (fun f => f.restrict snaps dst.names)).or
        (Dict.get? dst.dyn k) := by
  unfold copyDyn
  exact foldl_set_get? src.dyn (fun f => f.restrict snaps dst.names) dst.dyn hn k

theorem init_get? (sch : Schema V) (c : Cls) (k : Attr) (f : Frame V)
    (h : Dict.get? ((init sch).comps c).dyn k = some f) : f.cols = [] := by
  have := Dict.mem_of_get? h
  simp only [init, List.mem_map] at this
  obtain ⟨a, _, ha⟩ := this
  simp only [Prod.mk.injEq] at ha
  rw [← ha.2]; rfl

end Verif.Network
