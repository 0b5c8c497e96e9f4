import Verif.IO.Model
import Verif.Network.MergeProps

/-! # Lemmas about export and import -/

namespace Verif.IO

open Verif.Network

variable {V : Type} [DecidableEq V] (cfg : Setup V)

/-! ## Series in a store -/

theorem writeOne_get (c : Cls) (d : Dict Attr (SeriesTable V)) (e : Attr × Frame V) (k : Attr) :
    Dict.get? (writeOne cfg c d e) k =
      if e.1 = k then
        (if (writtenSeries cfg c e.1 e.2).isEmpty then none
         else some ⟨writtenSeries cfg c e.1 e.2, e.2.index.map (fun s => e.2.val s)⟩)
      else Dict.get? d k := by
  unfold writeOne
  by_cases h : (writtenSeries cfg c e.1 e.2).isEmpty
  · rw [if_pos h, Dict.get?_erase, if_pos h]
  · rw [if_neg h, Dict.get?_set, if_neg h]

theorem writeOne_nodup (c : Cls) (d : Dict Attr (SeriesTable V)) (e : Attr × Frame V)
    (h : (Dict.keys d).Nodup) : (Dict.keys (writeOne cfg c d e)).Nodup := by
  unfold writeOne
  split
  · exact h.sublist (List.Sublist.map _ List.filter_sublist)
  · exact Dict.nodup_keys_set _ _ _ h

theorem writeAll_nodup (c : Cls) (dyn : Dict Attr (Frame V)) (d : Dict Attr (SeriesTable V))
    (h : (Dict.keys d).Nodup) : (Dict.keys (dyn.foldl (writeOne cfg c) d)).Nodup := by
  induction dyn generalizing d with
  | nil => exact h
  | cons e l ih => exact ih _ (writeOne_nodup cfg c d e h)

theorem writeAll_get (c : Cls) (dyn : Dict Attr (Frame V)) (hn : (Dict.keys dyn).Nodup)
    (d : Dict Attr (SeriesTable V)) (k : Attr) :
    Dict.get? (dyn.foldl (writeOne cfg c) d) k =
      match Dict.get? dyn k with
      | some f =>
        if (writtenSeries cfg c k f).isEmpty then none
        else some ⟨writtenSeries cfg c k f, f.index.map (fun s => f.val s)⟩
      | none => Dict.get? d k := by
  induction dyn generalizing d with
  | nil => rfl
  | cons e l ih =>
    obtain ⟨a, f⟩ := e
    simp only [Dict.keys, List.map_cons, List.nodup_cons] at hn
    rw [List.foldl_cons, ih hn.2]
    rw [Dict.get?_cons]
    by_cases h : a = k
    · subst h
      have : Dict.get? l a = none := by
        cases hg : Dict.get? l a with
        | none => rfl
        | some v => exact absurd (List.mem_map_of_mem (f := (·.1)) (Dict.mem_of_get? hg)) hn.1
      rw [this, if_pos rfl]
      simp only [writeOne_get, if_true]
    · rw [if_neg h]
      cases Dict.get? l k with
      | none => simp only [writeOne_get, if_neg h]
      | some v => rfl

/-! ## The network in a store -/

/-- The columns found in a store. -/
def colsOf (st : Store V) (c : Cls) : List Attr := ((st.static c).map (·.cols)).getD []

/-- The data found in a store, for one class. -/
def decodeComp (st : Store V) (c : Cls) (t : StaticTable V) : Comp V where
  names := t.names
  sval := fun y k => if k ∈ t.cols then t.val y k else cfg.sch.dflt c k
  dyn := if cfg.skipTime then [] else (st.series c).map (fun e => (e.1, relabel st.snaps e.2))

/-- The data found in a store. -/
def decode (st : Store V) : Network V where
  snaps := st.snaps
  w := { index := st.snaps, val := st.w }
  pw := { index := st.periods, val := st.pw }
  comps := fun c =>
    ((st.static c).map (decodeComp cfg st c)).getD { names := [], sval := fun _ k => cfg.sch.dflt c k, dyn := [] }

/-- Reading gives back what was written. -/
def Faithful (t : StaticTable V) (c : Cls) : Prop :=
  cfg.readNames t.names = t.names ∧
    ∀ k ∈ t.cols, cfg.readCol (cfg.sch.dflt c k) (t.names.map (fun y => t.val y k)) = t.names.map (fun y => t.val y k)

theorem readKwargs_eq (st : Store V) (c : Cls) (t : StaticTable V) (h : Faithful cfg t c) :
    readKwargs cfg c t = staticKwargs (decodeComp cfg st c t) t.names t.cols := by
  unfold readKwargs staticKwargs decodeComp
  apply List.map_congr_left
  intro k hk
  rw [h.1, h.2 k hk]
  simp [hk]

theorem readSeries_eq (c : Cls) (l : List (Attr × SeriesTable V)) (n : Network V)
    (hl : ∀ e ∈ l, e.2.rows.length = n.snaps.length) :
    readSeries cfg c l n = .ok (importAll cfg.sch n c false (l.map (fun e => (e.1, relabel n.snaps e.2)))) := by
  induction l generalizing n with
  | nil => rfl
  | cons e r ih =>
    obtain ⟨k, t⟩ := e
    have hs : (importSeries cfg.sch n c k (relabel n.snaps t) false).snaps = n.snaps :=
      importAll_snaps cfg.sch n c false [(k, relabel n.snaps t)]
    simp only [readSeries]
    rw [if_pos (hl (k, t) (by simp)), ih _ (by intro e he; rw [hs]; exact hl e (by simp [he])), hs]
    rfl

theorem readClass_eq (st : Store V) (c : Cls) (t : StaticTable V) (n : Network V) (ht : st.static c = some t)
    (hf : Faithful cfg t c) (hs : n.snaps = st.snaps)
    (hl : ∀ e ∈ st.series c, e.2.rows.length = st.snaps.length)
    (hadd : ∀ m, add cfg.sch n c t.names "" false false (staticKwargs (decodeComp cfg st c t) t.names t.cols) = .ok m →
      m.snaps = n.snaps) :
    readClass cfg st c n = mergeClass cfg.sch (colsOf st) (decode cfg st) c n := by
  have hc : (decode cfg st).comps c = decodeComp cfg st c t := by simp [decode, ht]
  have hcols : colsOf st c = t.cols := by simp [colsOf, ht]
  unfold readClass mergeClass
  rw [ht]
  simp only [hc, hcols]
  rw [readKwargs_eq cfg st c t hf, hf.1]
  have hnames : (decodeComp cfg st c t).names = t.names := rfl
  rw [hnames]
  cases ha : add cfg.sch n c t.names "" false false (staticKwargs (decodeComp cfg st c t) t.names t.cols) with
  | error e => rfl
  | ok m =>
    have hms := (hadd m ha).trans hs
    simp only
    cases hk : cfg.skipTime with
    | true => simp [decodeComp, hk]
    | false =>
      simp only [Bool.false_eq_true, if_false]
      rw [readSeries_eq cfg c _ m (by rw [hms]; exact hl), hms]
      simp [decodeComp, hk, importAll]

theorem readClasses_eq (st : Store V) (cs : List Cls) (hcs : cs.Nodup) (n : Network V) (hwf : WF cfg.sch n)
    (hg : cfg.sch.Good) (hsrc : Source cfg.sch (colsOf st) (decode cfg st))
    (hf : ∀ c ∈ cs, ∀ t, st.static c = some t → Faithful cfg t c) (hs : n.snaps = st.snaps)
    (hl : ∀ c ∈ cs, ∀ e ∈ st.series c, e.2.rows.length = st.snaps.length)
    (hd : ∀ c ∈ cs, ∀ x ∈ ((decode cfg st).comps c).names, x ∉ (n.comps c).names) :
    readClasses cfg st cs n =
      mergeLoop cfg.sch (colsOf st) (decode cfg st) (cs.filter (fun c => (st.static c).isSome)) n := by
  induction cs generalizing n with
  | nil => rfl
  | cons c cs ih =>
    simp only [List.nodup_cons] at hcs
    cases ht : st.static c with
    | none =>
      have : readClass cfg st c n = .ok n := by simp [readClass, ht]
      simp only [readClasses, this, List.filter_cons, ht, Option.isSome_none, Bool.false_eq_true, if_false]
      exact ih hcs.2 n hwf (fun c' h' => hf c' (by simp [h'])) hs (fun c' h' => hl c' (by simp [h']))
        (fun c' h' => hd c' (by simp [h']))
    | some t =>
      have hdc := hd c (by simp)
      have hcomp : (decode cfg st).comps c = decodeComp cfg st c t := by simp [decode, ht]
      have hcols : colsOf st c = t.cols := by simp [colsOf, ht]
      have hrc : readClass cfg st c n = mergeClass cfg.sch (colsOf st) (decode cfg st) c n := by
        apply readClass_eq cfg st c t n ht (hf c (by simp) t ht) hs (hl c (by simp))
        intro m hm
        obtain ⟨m', a1, _, a3, _⟩ := addStatic_spec cfg.sch n hwf c (decodeComp cfg st c t) t.names
          (by have := hsrc.names_nodup c; rw [hcomp] at this; exact this)
          (by rw [hcomp] at hdc; exact hdc) t.cols (by rw [← hcols]; exact hsrc.cols_nodup c)
          (by rw [← hcols]; exact hsrc.cols_static c)
        rw [hm] at a1
        cases a1
        exact a3
      obtain ⟨m, b1, b2, b3, _, _, b6, _⟩ :=
        mergeClass_spec cfg.sch hg (colsOf st) n (decode cfg st) hwf hsrc hs c hdc
      simp only [readClasses, hrc, b1, List.filter_cons, ht, Option.isSome_some, if_true, mergeLoop]
      refine ih hcs.2 m b2 (fun c' h' => hf c' (by simp [h'])) (b3.trans hs) (fun c' h' => hl c' (by simp [h'])) ?_
      intro c' h' x hx
      rw [b6 c' (fun h => hcs.1 (h ▸ h'))]
      exact hd c' (by simp [h']) x hx

theorem readClasses_filter (st : Store V) (cs : List Cls) (n : Network V) :
    readClasses cfg st cs n = readClasses cfg st (cs.filter (fun c => (st.static c).isSome)) n := by
  induction cs generalizing n with
  | nil => rfl
  | cons c cs ih =>
    cases ht : st.static c with
    | none =>
      have : readClass cfg st c n = .ok n := by simp [readClass, ht]
      simp only [readClasses, this, List.filter_cons, ht, Option.isSome_none, Bool.false_eq_true, if_false]
      exact ih n
    | some t =>
      simp only [readClasses, List.filter_cons, ht, Option.isSome_some, if_true]
      cases readClass cfg st c n with
      | error e => rfl
      | ok m => exact ih m

/-! ## The fresh network -/

omit [DecidableEq V] in
theorem fresh_wf (b : Bool) (h : ∀ c, (cfg.std c).Nodup) : WF cfg.sch (fresh cfg b) := by
  have hi := init_wf cfg.sch
  refine ⟨?_, ?_, hi.w_index, hi.keys, hi.snaps_nodup, hi.snaps_hom, hi.snaps_ne⟩
  · intro c
    show (if b then [] else cfg.std c).Nodup
    split
    · simp
    · exact h c
  · intro c k f hf
    refine ⟨(hi.table c k f hf).1, (hi.table c k f hf).2.1, ?_⟩
    intro x hx
    rw [init_get? cfg.sch c k f hf] at hx
    simp at hx

end Verif.IO
