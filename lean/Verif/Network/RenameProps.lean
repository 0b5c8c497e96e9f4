import Verif.Network.MergeProps

/-!
# Property C11: renaming components
-/

namespace Verif.Network

variable {V : Type}

/-- A column that refers to a bus: its name starts with `bus`. -/
def RefCol (k : Attr) : Prop := ['b', 'u', 's'] <+: k.toList

instance (k : Attr) : Decidable (RefCol k) := by unfold RefCol; infer_instance

theorem mem_ports_iff (cols : List Attr) (k : Attr) :
    k ∈ (portsOf cols).map (fun p => "bus" ++ p) ↔ k ∈ cols ∧ RefCol k := by
  have key : ∀ k : Attr, RefCol k → "bus" ++ String.ofList (k.toList.drop 3) = k := by
    intro k hk
    obtain ⟨t, ht⟩ := hk
    apply String.ext
    rw [String.toList_append, ← ht]
    simp
  simp only [portsOf, List.mem_map, List.mem_filterMap, Option.ite_none_right_eq_some,
    List.isPrefixOf_iff_prefix, Option.some.injEq]
  constructor
  · rintro ⟨p, ⟨k', hk', hp, rfl⟩, rfl⟩
    rw [key k' hp]
    exact ⟨hk', hp⟩
  · rintro ⟨h1, h2⟩
    exact ⟨_, ⟨k, h1, h2, rfl⟩, key k h2⟩

theorem find?_injective {l : List Name} {r : Name → Name}
    (hinj : ∀ x ∈ l, ∀ y ∈ l, r x = r y → x = y) {x : Name} (hx : x ∈ l) :
    l.find? (fun z => r z = r x) = some x := by
  cases h : l.find? (fun z => r z = r x) with
  | none =>
    have := List.find?_eq_none.1 h x hx
    simp at this
  | some z =>
    have h1 := List.mem_of_find?_eq_some h
    have h2 := List.find?_some h
    simp only [decide_eq_true_eq] at h2
    rw [hinj z h1 x hx h2]

theorem renameRefs_bus (cols : Cls → List Attr) (kw : Dict Name Name) (cs : List Cls)
    (hcs : cs.Nodup) (n : Network Val) :
    (renameRefs cols "bus" kw cs n).2 = none ∧
    (renameRefs cols "bus" kw cs n).1.snaps = n.snaps ∧
    (renameRefs cols "bus" kw cs n).1.w = n.w ∧
    (renameRefs cols "bus" kw cs n).1.pw = n.pw ∧
    ∀ c, ((renameRefs cols "bus" kw cs n).1.comps c).names = (n.comps c).names ∧
      ((renameRefs cols "bus" kw cs n).1.comps c).dyn = (n.comps c).dyn ∧
      ∀ x ∈ (n.comps c).names, ∀ k,
        ((renameRefs cols "bus" kw cs n).1.comps c).sval x k =
          if c ∈ cs ∧ k ∈ cols c ∧ RefCol k then replaceVal kw ((n.comps c).sval x k)
          else (n.comps c).sval x k := by
  induction cs generalizing n with
  | nil => simp [renameRefs]
  | cons c cs ih =>
    simp only [List.nodup_cons] at hcs
    unfold renameRefs
    simp only
    split
    · rename_i hskip
      obtain ⟨a1, a2, a3, a4, a5⟩ := ih hcs.2 n
      refine ⟨a1, a2, a3, a4, fun c' => ⟨(a5 c').1, (a5 c').2.1, ?_⟩⟩
      intro x hx k
      rw [(a5 c').2.2 x hx k]
      by_cases hc : c' = c
      · subst hc
        simp only [hcs.1, false_and, if_false, List.mem_cons, true_or, true_and]
        rw [if_neg]
        intro hk
        have := (mem_ports_iff (cols c') k).2 hk
        simp only [Bool.or_eq_true, List.isEmpty_iff] at hskip
        rcases hskip with h' | h'
        · rw [h'] at this; simp at this
        · rw [h'] at hx; simp at hx
      · simp [hc]
    · split
      · rename_i hw
        exact absurd (fun k hk => ((mem_ports_iff (cols c) k).1 hk).1) hw
      · obtain ⟨a1, a2, a3, a4, a5⟩ := ih hcs.2
          (n.setComp c (replaceRefs kw ((portsOf (cols c)).map (fun p => "bus" ++ p)) (n.comps c)))
        refine ⟨a1, a2, a3, a4, ?_⟩
        intro c'
        obtain ⟨b1, b2, b3⟩ := a5 c'
        by_cases hc : c' = c
        · subst hc
          simp only [setComp_self] at b1 b2 b3
          refine ⟨b1, b2, ?_⟩
          intro x hx k
          rw [b3 x hx k]
          simp only [hcs.1, false_and, if_false, List.mem_cons, true_or, true_and, replaceRefs,
            mem_ports_iff]
        · rw [setComp_ne _ _ hc] at b1 b2 b3
          refine ⟨b1, b2, ?_⟩
          intro x hx k
          rw [b3 x hx k]
          simp [hc]

/-- **C11 (partial: buses only, and new names that do not clash).**
`n.components.buses.rename_component_names(**kw)` does not raise; the buses are relabelled in
place, each keeping its static values and every value read from its series; in every other
class the names, series and all other columns are as before and each bus reference is
relabelled, so a reference to an existing bus still refers to that bus; names stay unique.
Missing: other classes than `Bus` (`rename_line_raises_halfway`) and clashing new names
(`rename_makes_duplicates`), where the claim is false. -/
theorem rename_bus_partial (sch : Schema Val) (lay : Layout) (lower : Cls → String)
    (hlow : lower "Bus" = "bus") (hcls : lay.classes.Nodup)
    (hport : ∀ k ∈ lay.cols "Bus", ¬ RefCol k)
    (n : Network Val) (h : WF sch n) (kw : Dict Name Name)
    (hinj : ∀ x ∈ (n.comps "Bus").names, ∀ y ∈ (n.comps "Bus").names,
      renamed kw x = renamed kw y → x = y) :
    ∃ m, renameComponentNames lay lower n "Bus" kw = (m, none) ∧ WF sch m ∧
      m.snaps = n.snaps ∧ m.w = n.w ∧ m.pw = n.pw ∧
      (m.comps "Bus").names = (n.comps "Bus").names.map (renamed kw) ∧
      (∀ x ∈ (n.comps "Bus").names,
        (m.comps "Bus").sval (renamed kw x) = (n.comps "Bus").sval x ∧
        ∀ k s, effective sch m "Bus" k s (renamed kw x) = effective sch n "Bus" k s x) ∧
      ∀ c, c ≠ "Bus" →
        (m.comps c).names = (n.comps c).names ∧ (m.comps c).dyn = (n.comps c).dyn ∧
        ∀ x ∈ (n.comps c).names, ∀ k,
          (¬ RefCol k → (m.comps c).sval x k = (n.comps c).sval x k) ∧
          (RefCol k → c ∈ lay.classes → k ∈ lay.cols c → ∀ b,
            (n.comps c).sval x k = some (.str b) →
              (m.comps c).sval x k = some (.str (renamed kw b)) ∧
              (b ∈ (n.comps "Bus").names → renamed kw b ∈ (m.comps "Bus").names)) := by
  obtain ⟨a1, a2, a3, a4, a5⟩ := renameRefs_bus lay.cols kw lay.classes hcls
    (n.setComp "Bus" (renameComp kw (n.comps "Bus")))
  have hsub : ∀ k f, Dict.get? (n.comps "Bus").dyn k = some f →
      ∀ y ∈ f.cols, y ∈ (n.comps "Bus").names := fun k f hf => (h.table "Bus" k f hf).2.2
  have hwf : WF sch (n.setComp "Bus" (renameComp kw (n.comps "Bus"))) := by
    refine h.setComp "Bus" _ ?_ ?_ ?_
    · exact List.Nodup.map_on hinj (h.names_nodup "Bus")
    · intro k f hf
      simp only [renameComp, get?_mapDyn, Option.map_eq_some_iff] at hf
      obtain ⟨g, hg, rfl⟩ := hf
      obtain ⟨t1, t2, t3⟩ := h.table "Bus" k g hg
      refine ⟨t1, List.Nodup.map_on (fun x hx y hy => hinj x (t3 x hx) y (t3 y hy)) t2, ?_⟩
      intro y hy
      obtain ⟨z, hz, rfl⟩ := List.mem_map.1 hy
      exact List.mem_map.2 ⟨z, t3 z hz, rfl⟩
    · intro a ha hv
      simpa [renameComp, get?_mapDyn] using h.keys "Bus" a ha hv
  rw [setComp_snaps] at a2
  refine ⟨_, Prod.ext rfl ?_, ?_, ?_, ?_, ?_, ?_, ?_, ?_⟩
  · simp only [renameComponentNames, hlow]; exact a1
  · simp only [renameComponentNames, hlow]
    constructor
    · intro c; rw [(a5 c).1]; exact hwf.names_nodup c
    · intro c k f hf
      rw [(a5 c).2.1] at hf
      rw [(a5 c).1, a2]
      exact hwf.table c k f hf
    · rw [a3, a2]; exact h.w_index
    · intro c a ha hv
      rw [(a5 c).2.1]; exact hwf.keys c a ha hv
    · rw [a2]; exact h.snaps_nodup
    · rw [a2]; exact h.snaps_hom
    · rw [a2]; exact h.snaps_ne
  · simp only [renameComponentNames, hlow]; exact a2
  · simp only [renameComponentNames, hlow]; exact a3
  · simp only [renameComponentNames, hlow]; exact a4
  · simp only [renameComponentNames, hlow]; rw [(a5 "Bus").1]; simp [renameComp]
  · intro x hx
    simp only [renameComponentNames, hlow]
    have hx' : renamed kw x ∈ ((n.setComp "Bus" (renameComp kw (n.comps "Bus"))).comps "Bus").names := by
      simp only [setComp_self, renameComp]
      exact List.mem_map.2 ⟨x, hx, rfl⟩
    have hsv : ((renameRefs lay.cols "bus" kw lay.classes
        (n.setComp "Bus" (renameComp kw (n.comps "Bus")))).1.comps "Bus").sval (renamed kw x) =
        (n.comps "Bus").sval x := by
      funext k
      rw [(a5 "Bus").2.2 _ hx' k, if_neg (fun hk => hport k hk.2.1 hk.2.2)]
      simp only [setComp_self, renameComp, find?_injective hinj hx]
    refine ⟨hsv, ?_⟩
    intro k s
    unfold effective
    rw [hsv, (a5 "Bus").2.1]
    simp only [setComp_self, renameComp, get?_mapDyn]
    cases hg : Dict.get? (n.comps "Bus").dyn k with
    | none => simp
    | some f =>
      simp only [Option.map_some]
      have hfs := hsub k f hg
      by_cases hxf : x ∈ f.cols
      · have : renamed kw x ∈ f.cols.map (renamed kw) := List.mem_map.2 ⟨x, hxf, rfl⟩
        simp only [this, if_true, hxf]
        rw [find?_injective (fun a ha b hb => hinj a (hfs a ha) b (hfs b hb)) hxf]
      · have : renamed kw x ∉ f.cols.map (renamed kw) := by
          intro h'
          obtain ⟨z, hz, hzx⟩ := List.mem_map.1 h'
          rw [hinj z (hfs z hz) x hx hzx] at hz
          exact hxf hz
        simp only [this, if_false, hxf]
  · intro c hc
    simp only [renameComponentNames, hlow]
    obtain ⟨b1, b2, b3⟩ := a5 c
    have hB := (a5 "Bus").1
    rw [setComp_ne _ _ hc] at b1 b2 b3
    refine ⟨b1, b2, ?_⟩
    intro x hx k
    rw [b3 x hx k]
    refine ⟨fun hk => by simp [hk], ?_⟩
    intro hk hcc hkc b hb
    refine ⟨by simp [hk, hcc, hkc, hb, replaceVal], ?_⟩
    intro hbn
    rw [hB]
    simp only [setComp_self, renameComp]
    exact List.mem_map.2 ⟨b, hbn, rfl⟩

/-! ### Example and witnesses -/

/-- `str.lower` on the class names of the example. -/
def exLower (c : Cls) : String :=
  if c = "Bus" then "bus" else if c = "Line" then "line" else "generator"

/-- Non-vacuity: swapping two buses meets the hypotheses of `rename_bus_partial`. -/
example : exLower "Bus" = "bus" ∧ exKinds.classes.Nodup ∧
    (∀ k ∈ exKinds.cols "Bus", ¬ RefCol k) ∧ WF exSch exNet ∧
    (∀ x ∈ (exNet.comps "Bus").names, ∀ y ∈ (exNet.comps "Bus").names,
      renamed [("b1", "b2"), ("b2", "b1")] x = renamed [("b1", "b2"), ("b2", "b1")] y → x = y) := by
  refine ⟨rfl, by decide, by decide +kernel, exNet_wf, by decide +kernel⟩

/-- The generators follow their bus. -/
example : let r := renameComponentNames exKinds.toLayout exLower exNet "Bus" [("b1", "b2"), ("b2", "b1")]
    r.2 = none ∧ (r.1.comps "Bus").names = ["b2", "b1", "b3"] ∧
    (exNet.comps "Generator").sval "g1" "bus" = some (.str "b1") ∧
    (r.1.comps "Generator").sval "g1" "bus" = some (.str "b2") := by
  decide +kernel

/-- **C11 fails for classes other than `Bus`** (finding, `components/abstract.py` 724-729):
renaming a line looks for the column `line0`, ... made from the ports of every other class,
raises `KeyError`, and leaves the line renamed. -/
theorem rename_line_raises_halfway :
    let r := renameComponentNames exKinds.toLayout exLower exNet "Line" [("l12", "new")]
    r.2 = some .keyError ∧ (exNet.comps "Line").names = ["l12", "l23"] ∧
    (r.1.comps "Line").names = ["new", "l23"] := by
  decide +kernel

/-- **C11 fails for a clashing new name** (finding): the name of another bus is accepted, and
the table has two rows with the same name. -/
theorem rename_makes_duplicates :
    let r := renameComponentNames exKinds.toLayout exLower exNet "Bus" [("b1", "b2")]
    r.2 = none ∧ ¬ (r.1.comps "Bus").names.Nodup := by
  decide +kernel

end Verif.Network
