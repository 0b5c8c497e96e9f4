import Verif.Network.Model

/-! # Helper lemmas for the component store -/

namespace Verif.Network

variable {V : Type}

theorem get?_mapDyn (g : Attr → Frame V → Frame V) (d : Dict Attr (Frame V)) (k : Attr) :
    Dict.get? (mapDyn g d) k = (Dict.get? d k).map (g k) := by
  induction d with
  | nil => simp [mapDyn]
  | cons e d ih =>
    obtain ⟨k', f⟩ := e
    simp only [mapDyn, List.map_cons, Dict.get?_cons] at *
    by_cases h : k' = k
    · subst h; simp
    · simp only [h, if_false]; exact ih

theorem keys_mapDyn (g : Attr → Frame V → Frame V) (d : Dict Attr (Frame V)) :
    Dict.keys (mapDyn g d) = Dict.keys d := by
  simp [mapDyn, Dict.keys]

@[simp] theorem setComp_snaps (n : Network V) (c : Cls) (x : Comp V) :
    (n.setComp c x).snaps = n.snaps := rfl
@[simp] theorem setComp_w (n : Network V) (c : Cls) (x : Comp V) :
    (n.setComp c x).w = n.w := rfl
@[simp] theorem setComp_pw (n : Network V) (c : Cls) (x : Comp V) :
    (n.setComp c x).pw = n.pw := rfl
@[simp] theorem setComp_self (n : Network V) (c : Cls) (x : Comp V) :
    (n.setComp c x).comps c = x := by simp [Network.setComp]
theorem setComp_ne (n : Network V) {c c' : Cls} (x : Comp V) (h : c' ≠ c) :
    (n.setComp c x).comps c' = n.comps c' := by simp [Network.setComp, h]

theorem mem_unionNames (a b : List Name) (x : Name) :
    x ∈ unionNames a b ↔ x ∈ a ∨ x ∈ b := by
  simp only [unionNames, List.mem_append, List.mem_filter, decide_eq_true_eq]
  by_cases h : x ∈ a <;> simp [h]

theorem nodup_unionNames {a b : List Name} (ha : a.Nodup) (hb : b.Nodup) :
    (unionNames a b).Nodup := by
  refine List.nodup_append.2 ⟨ha, hb.filter _, ?_⟩
  intro x hx y hy hxy
  subst hxy
  simp only [List.mem_filter, decide_eq_true_eq] at hy
  exact hy.2 hx

/-! ## `fillOutputs` -/

theorem fillOutput_get? (sch : Schema V) (c : Cls) (static : StaticArgs V)
    (fin tgt : List Name) (snaps : List Snap) (dyn : Dict Attr (Frame V)) (k0 k : Attr) :
    Dict.get? (fillOutput sch c static fin tgt snaps dyn k0) k =
      if k = k0 ∧ sch.seriesOnly c k = true then
        (Dict.get? dyn k).map (fun f => (f.reindexCols fin (sch.dflt c k)).assign
            snaps tgt (fun _ x => cleaned sch c static x k))
      else Dict.get? dyn k := by
  unfold fillOutput
  by_cases hk : k = k0
  · subst hk
    by_cases hs : sch.seriesOnly c k = true
    · simp only [hs, if_true, and_self]
      cases hg : Dict.get? dyn k with
      | none => simp [hg]
      | some f => simp [Dict.get?_set_self]
    · simp [hs]
  · simp only [hk, false_and, if_false]
    split
    · split
      · rw [Dict.get?_set_ne _ _ (Ne.symm hk)]
      · rfl
    · rfl

theorem fillOutputs_get? (sch : Schema V) (c : Cls) (static : StaticArgs V)
    (fin tgt : List Name) (snaps : List Snap) (ks : List Attr) (hks : ks.Nodup)
    (dyn : Dict Attr (Frame V)) (k : Attr) :
    Dict.get? (fillOutputs sch c static fin tgt snaps ks dyn) k =
      if k ∈ ks ∧ sch.seriesOnly c k = true then
        (Dict.get? dyn k).map (fun f => (f.reindexCols fin (sch.dflt c k)).assign
            snaps tgt (fun _ x => cleaned sch c static x k))
      else Dict.get? dyn k := by
  induction ks generalizing dyn with
  | nil => simp [fillOutputs]
  | cons k0 ks ih =>
    simp only [List.nodup_cons] at hks
    simp only [fillOutputs, List.foldl_cons] at *
    rw [ih hks.2, fillOutput_get?]
    by_cases hk : k = k0
    · subst hk; simp [hks.1]
    · simp [hk]

end Verif.Network
