import Verif.Opt.ReplaceProps
import Verif.Opt.OrderProps
import Verif.Opt.KvlProps

/-!
# C123: which end of a line or transformer is called `bus0` does not matter

About the whole problem of `Whole.lean` and the voltage law of `Kvl.lean`; the power flow is in `PowerFlow/TurnProps.lean`.
-/

namespace Verif.Opt.Whole

variable {F : Type} [Field F] [LinearOrder F]

/-! ## The network with some branches turned round -/

/-- Both ends are swapped; a set point of the flow, which counts from `bus0` to `bus1`, changes its sign. -/
def turned (b : BranchW F) : BranchW F :=
  { b with bus0 := b.bus1, bus1 := b.bus0, sSet := fun t => (b.sSet t).map (fun v => - v) }

/-- Lines with names in `L` and transformers with names in `T` are turned round. -/
def turnNet (L T : Name → Bool) (w : WNet F) : WNet F :=
  { w with lines := w.lines.map (fun b => if L b.name then turned b else b)
           trafos := w.trafos.map (fun b => if T b.name then turned b else b) }

/-- A variable is the flow over a branch that is turned round. -/
def Turns (L T : Name → Bool) (v : WVar) : Prop :=
  ∃ name t, (v = .of "Line" name (.op "s" t) ∧ L name = true) ∨ (v = .of "Transformer" name (.op "s" t) ∧ T name = true)

/-- Two points are the same but for the signs of the flows over these branches. -/
def SameButTurned (L T : Name → Bool) (x y : WVar → F) : Prop :=
  ∀ v, (Turns L T v → y v = - x v) ∧ (¬ Turns L T v → y v = x v)

open Classical in
/-- The point for the other network. -/
noncomputable def turnPoint (L T : Name → Bool) (x : WVar → F) : WVar → F := fun v => if Turns L T v then - x v else x v

theorem turnPoint_same (L T : Name → Bool) (x : WVar → F) : SameButTurned L T x (turnPoint L T x) := by
  intro v
  unfold turnPoint
  constructor <;> intro h
  · rw [if_pos h]
  · rw [if_neg h]

omit [LinearOrder F] in
theorem same_symm {L T : Name → Bool} {x y : WVar → F} (h : SameButTurned L T x y) : SameButTurned L T y x := by
  intro v
  refine ⟨fun ht => ?_, fun ht => ((h v).2 ht).symm⟩
  rw [(h v).1 ht, neg_neg]

omit [Field F] [LinearOrder F] in
theorem turned_twice [Field F] (b : BranchW F) : turned (turned b) = b := by
  unfold turned
  simp [Option.map_map, Function.comp_def]

theorem turnNet_twice (L T : Name → Bool) (w : WNet F) : turnNet L T (turnNet L T w) = w := by
  have h : ∀ (R : Name → Bool) (l : List (BranchW F)), (l.map (fun b => if R b.name then turned b else b)).map
      (fun b => if R b.name then turned b else b) = l := by
    intro R l
    rw [List.map_map]
    refine (List.map_congr_left (g := id) ?_).trans (List.map_id l)
    intro b _
    by_cases hb : R b.name = true
    · simp only [Function.comp_apply, hb, if_true]
      rw [if_pos (by simpa [turned] using hb), turned_twice]; rfl
    · simp [Function.comp_apply, hb]
  unfold turnNet
  simp only [h]

/-! ## Rows of assets -/

theorem loc_line {L T : Name → Bool} {x y : WVar → F} (h : SameButTurned L T x y) {comp name : Name} {v : Loc}
    (hv : ∀ t, v ≠ .op "s" t) : y (.of comp name v) = x (.of comp name v) := by
  refine (h _).2 ?_
  rintro ⟨n, t, ⟨e, -⟩ | ⟨e, -⟩⟩
  · cases e; exact hv t rfl
  · cases e; exact hv t rfl

theorem loc_comp {L T : Name → Bool} {x y : WVar → F} (h : SameButTurned L T x y) {comp name : Name} {v : Loc}
    (h1 : comp ≠ "Line") (h2 : comp ≠ "Transformer") : y (.of comp name v) = x (.of comp name v) := by
  refine (h _).2 ?_
  rintro ⟨n, t, ⟨e, -⟩ | ⟨e, -⟩⟩
  · cases e; exact h1 rfl
  · cases e; exact h2 rfl

/-- The values of one branch are turned round: only flows change. -/
structure LocTurned (y y' : Loc → F) : Prop where
  flow : ∀ t, y' (.op "s" t) = - y (.op "s" t)
  other : ∀ v, (∀ t, v ≠ .op "s" t) → y' v = y v

theorem holds_other {y y' : Loc → F} (h : LocTurned y y') {rs : List (Con Loc F)} (hr : ∀ q ∈ rs, ∀ e ∈ q.terms, ∀ t, e.2 ≠ .op "s" t) :
    (∀ q ∈ rs, q.holds y') ↔ ∀ q ∈ rs, q.holds y := by
  refine forall₂_congr fun q hq => ?_
  have : lin y' q.terms = lin y q.terms := by
    unfold lin
    congr 1
    exact List.map_congr_left fun e he => by rw [h.other _ (hr q hq e he)]
  unfold Con.holds
  rw [this]

theorem capRows_flow {name : Name} {ext : Bool} {i : Invest F} {rs : List (Con Loc F)} (h : capRows name ext i = some rs) :
    ∀ q ∈ rs, ∀ e ∈ q.terms, ∀ t, e.2 ≠ .op "s" t := by
  unfold capRows at h
  obtain ⟨r, -, rfl⟩ := Option.map_eq_some_iff.mp h
  intro q hq e he t
  rw [List.mem_append] at hq
  rcases hq with hq | hq
  · obtain ⟨q, -, rfl⟩ := List.mem_map.mp hq
    simp only [remap, List.mem_map] at he
    obtain ⟨e', -, rfl⟩ := he
    cases e'.2 <;> simp [capLoc]
  · split at hq
    · simp only [List.mem_singleton] at hq
      subst hq
      simp only [List.mem_singleton] at he
      subst he
      simp
    · simp at hq

theorem boundRows_turn [IsStrictOrderedRing F] {len : Nat} {c : Accessor.Cls} (hc : c = .line ∨ c = .transformer) (l : Bool)
    (a : Nat → Accessor.Asset F) {y y' : Loc → F} (h : LocTurned y y') :
    (∀ q ∈ boundRows len c .s "s" l a, q.holds y') ↔ ∀ q ∈ boundRows len c .s "s" l a, q.holds y := by
  have key : ∀ y : Loc → F, (∀ q ∈ boundRows len c .s "s" l a, q.holds y) ↔ ∀ t < len, (a t).active = true →
      - ((a t).maxPu * (if (a t).ext then y .cap else (a t).nom)) ≤ y (.op "s" t) - (if l then y (.op "loss" t) else 0) ∧
      y (.op "s" t) + (if l then y (.op "loss" t) else 0) ≤ (a t).maxPu * (if (a t).ext then y .cap else (a t).nom) := by
    intro y
    change Feasible y _ ↔ _
    unfold boundRows
    simp only [feasible_flatMap, List.mem_range]
    refine forall₂_congr (fun t _ => ?_)
    rw [show Feasible y _ ↔ _ from all_moved (boundLoc "s" t) y (Accessor.opRows c .s l (a t))]
    have hp : Accessor.passive c = true := by rcases hc with rfl | rfl <;> rfl
    have hb : Accessor.boundsPu c .s (a t) = (- (a t).maxPu, (a t).maxPu) := by rcases hc with rfl | rfl <;> rfl
    unfold Accessor.opRows Accessor.fixRows Accessor.extRows Accessor.lossTm
    rw [hb, hp]
    by_cases ha : (a t).active = true
    · simp only [ha, Bool.not_true, Bool.or_false, forall_const]
      have hnil : Feasible (fun v => y (boundLoc "s" t v)) ([] : List (Con Accessor.BVar F)) := by simp [Feasible]
      by_cases he : (a t).ext = true <;> cases l <;>
        simp only [he, Bool.true_and, Bool.not_true, Bool.not_false, Bool.false_eq_true, if_true, if_false, List.nil_append,
          List.append_nil, feasible_cons, Con.holds, lin, List.map_cons, List.map_nil, List.sum_cons, List.sum_nil, boundLoc] <;>
        constructor <;> intro hh
      all_goals
        first
        | exact ⟨by linarith [hh.1], by linarith [hh.2.1]⟩
        | exact ⟨by linarith [hh.1], by linarith [hh.2], hnil⟩
    · simp [ha, Feasible]
  rw [key, key]
  refine forall₃_congr fun t _ _ => ?_
  rw [h.flow, h.other (.op "loss" t) (by intro s e; simp at e), h.other .cap (by simp)]
  constructor <;> rintro ⟨h1, h2⟩ <;> constructor <;> linarith

theorem setRows_turn {len : Nat} {active : Nat → Bool} {value : Nat → Option F} {y y' : Loc → F} (h : LocTurned y y') :
    (∀ q ∈ setRows len "s" active (fun t => (value t).map (fun v => - v)), q.holds y') ↔
      ∀ q ∈ setRows len "s" active value, q.holds y := by
  rw [set_iff, set_iff]
  refine forall₃_congr fun t _ _ => ?_
  rw [h.flow]
  cases value t with
  | none => simp
  | some v => simp

theorem lossRows_turn {w : WNet F} {b : BranchW F} {rs : List (Con Loc F)} (hr : lossRows w b = some rs) {y y' : Loc → F}
    (h : LocTurned y y') : (∀ q ∈ rs, q.holds y') ↔ ∀ q ∈ rs, q.holds y := by
  unfold lossRows at hr
  split at hr
  · cases hr; simp
  · obtain ⟨ls, hls, rfl⟩ := Option.map_eq_some_iff.mp hr
    have hm := mapM_some_eq _ _ ls hls
    simp only [List.mem_flatten]
    have : ∀ l ∈ ls, ((∀ q ∈ l, q.holds y') ↔ ∀ q ∈ l, q.holds y) := by
      intro l hl
      have : some l ∈ (List.range w.len).map (fun t => (lossCons (branchLoss b t) w.tangents).toOption.map
          (fun r => r.map (remap (lossLoc t)))) := by rw [hm]; exact List.mem_map_of_mem hl
      obtain ⟨t, -, ht⟩ := List.mem_map.mp this
      obtain ⟨r, hr, rfl⟩ := Option.map_eq_some_iff.mp ht
      rw [all_moved, all_moved]
      unfold lossCons at hr
      split at hr
      · simp [Except.toOption] at hr
      · rename_i snm _
        simp only [Except.toOption, Option.some.injEq] at hr
        subst hr
        split
        · have e1 : y' (lossLoc t .loss) = y (lossLoc t .loss) := h.other _ (by intro s e; simp [lossLoc] at e)
          have e2 : y' (lossLoc t .flow) = - y (lossLoc t .flow) := h.flow t
          simp only [feasible_cons, feasible_flatMap]
          refine and_congr ?_ (and_congr ?_ (forall₂_congr fun k _ => ?_))
          · simp [Con.holds, lin, e1]
          · simp [Con.holds, lin, e1]
          · simp only [feasible_cons, tangentRow, Con.holds, lin, List.map_cons, List.map_nil, List.sum_cons, List.sum_nil, e1, e2]
            constructor
            · rintro ⟨h1, h2, -⟩
              refine ⟨le_trans h2 (le_of_eq (by ring)), le_trans h1 (le_of_eq (by ring)), by simp [Feasible]⟩
            · rintro ⟨h1, h2, -⟩
              refine ⟨le_trans h2 (le_of_eq (by ring)), le_trans h1 (le_of_eq (by ring)), by simp [Feasible]⟩
        · simp
    constructor
    · rintro hh q ⟨l, hl, hq⟩
      exact (this l hl).mp (fun q hq => hh q ⟨l, hl, hq⟩) q hq
    · rintro hh q ⟨l, hl, hq⟩
      exact (this l hl).mpr (fun q hq => hh q ⟨l, hl, hq⟩) q hq

/-- The rows of a branch that is turned round hold for the flows in the other direction. -/
theorem branchRows_turn [IsStrictOrderedRing F] {w w' : WNet F} (ht : w'.tangents = w.tangents) (hn : w'.len = w.len)
    {c : Accessor.Cls} (hc : c = .line ∨ c = .transformer) {b : BranchW F} {y y' : Loc → F} (h : LocTurned y y') :
    (branchRows w' c (turned b)).isSome = (branchRows w c b).isSome ∧
    ∀ rs' rs, branchRows w' c (turned b) = some rs' → branchRows w c b = some rs →
      ((∀ q ∈ rs', q.holds y') ↔ ∀ q ∈ rs, q.holds y) := by
  have hl : lossRows w' (turned b) = lossRows w b := by
    unfold lossRows
    rw [ht, hn]
    rfl
  have h0 : branchRows w' c (turned b) = (capRows b.name b.ext b.invest).bind (fun cap => (lossRows w b).map (fun loss => cap ++
      boundRows w.len c .s "s" (w.tangents != 0) (branchBound b) ++
      setRows w.len "s" b.active (fun t => (b.sSet t).map (fun v => - v)) ++ loss)) := by
    unfold branchRows
    rw [hl, ht, hn]
    rfl
  constructor
  · rw [h0]
    unfold branchRows
    cases capRows b.name b.ext b.invest <;> cases lossRows w b <;> rfl
  · intro rs' rs e' e
    rw [h0] at e'
    unfold branchRows at e
    obtain ⟨cap, hcap, e⟩ := Option.bind_eq_some_iff.mp e
    obtain ⟨loss, hloss, rfl⟩ := Option.map_eq_some_iff.mp e
    rw [hcap, hloss] at e'
    simp only [Option.bind_some, Option.map_some, Option.some.injEq] at e'
    subst e'
    change Feasible _ _ ↔ Feasible _ _
    simp only [feasible_append]
    exact and_congr (and_congr (and_congr (holds_other h (capRows_flow hcap)) (boundRows_turn hc _ _ h)) (setRows_turn h))
      (lossRows_turn hloss h)

/-! ## Nodal balance -/

section nodal
open Nodal

/-- A branch of the nodal balance turned round. -/
def turnC (b : Nodal.Branch) : Nodal.Branch := ⟨b.name, b.bus1, b.bus0, b.active⟩

/-- Two nodal balances differ by turned branches only. -/
structure NodalTurned (n n' : Net F) : Prop where
  buses : n'.buses = n.buses
  gens : n'.gens = n.gens
  stores : n'.stores = n.stores
  units : n'.units = n.units
  links : n'.links = n.links
  loads : n'.loads = n.loads
  lines : List.Forall₂ (fun b b' => b' = b ∨ b' = turnC b) n.lines n'.lines
  trafos : List.Forall₂ (fun b b' => b' = b ∨ b' = turnC b) n.trafos n'.trafos

/-- Where terms are. -/
def places (n : Net F) (losses : Bool) : List (Name × Bool) := (entries n losses).map (fun e => (e.bus, e.present))

theorem flatMap_turn {β : Type} (f : Nodal.Branch → List β) (hf : ∀ b, (f (turnC b)).Perm (f b)) {l l' : List Nodal.Branch}
    (h : List.Forall₂ (fun b b' => b' = b ∨ b' = turnC b) l l') : (l'.flatMap f).Perm (l.flatMap f) := by
  induction h with
  | nil => simp
  | cons h _ ih =>
    simp only [List.flatMap_cons]
    refine List.Perm.append ?_ ih
    rcases h with rfl | rfl
    · exact List.Perm.refl _
    · exact hf _

theorem places_turn {n n' : Net F} (h : NodalTurned n n') (losses : Bool) : (places n' losses).Perm (places n losses) := by
  have b1 : ∀ (mk : Name → NVar) {l l' : List Nodal.Branch}, List.Forall₂ (fun b b' => b' = b ∨ b' = turnC b) l l' →
      (l'.flatMap (fun b => (branchEntries (F := F) mk b).map (fun e => (e.bus, e.present)))).Perm
        (l.flatMap (fun b => (branchEntries (F := F) mk b).map (fun e => (e.bus, e.present)))) := by
    intro mk l l' hl
    refine flatMap_turn _ (fun b => ?_) hl
    simp only [branchEntries, turnC, List.map_cons, List.map_nil]
    exact List.Perm.swap _ _ _
  have b2 : ∀ (mk : Name → NVar) {l l' : List Nodal.Branch}, List.Forall₂ (fun b b' => b' = b ∨ b' = turnC b) l l' →
      (l'.flatMap (fun b => (lossEntries (F := F) mk b).map (fun e => (e.bus, e.present)))).Perm
        (l.flatMap (fun b => (lossEntries (F := F) mk b).map (fun e => (e.bus, e.present)))) := by
    intro mk l l' hl
    refine flatMap_turn _ (fun b => ?_) hl
    simp only [lossEntries, turnC, List.map_cons, List.map_nil]
    exact List.Perm.swap _ _ _
  unfold places entries
  rw [h.gens, h.stores, h.units, h.links]
  simp only [List.map_append, List.map_flatMap]
  refine List.Perm.append (List.Perm.append_right _ (List.Perm.append (List.Perm.append_left _ (b1 _ h.lines)) (b1 _ h.trafos))) ?_
  cases losses
  · exact List.Perm.refl _
  · simp only [if_true, List.map_append, List.map_flatMap]
    exact List.Perm.append (b2 _ h.lines) (b2 _ h.trafos)

theorem busRefs_turn {n n' : Net F} (h : NodalTurned n n') : (busRefs n').Perm (busRefs n) := by
  unfold busRefs
  refine List.Perm.filter _ ?_
  rw [h.gens, h.stores, h.units, h.links, h.loads]
  refine List.Perm.append_right _ (List.Perm.append_right _ (List.Perm.append (List.Perm.append_left _
    (flatMap_turn _ (fun b => ?_) h.lines)) (flatMap_turn _ (fun b => ?_) h.trafos)))
  all_goals exact List.Perm.swap _ _ _

theorem termsAt_nil (n : Net F) (losses : Bool) (b : Name) : termsAt n losses b = [] ↔ (b, true) ∉ places n losses := by
  unfold termsAt places
  rw [List.map_eq_nil_iff, List.filter_eq_nil_iff, List.mem_map]
  constructor
  · rintro h ⟨e, he, h'⟩
    simp only [Prod.mk.injEq] at h'
    exact h e he (by simp [h'.1, h'.2])
  · rintro h e he h'
    simp only [Bool.and_eq_true, decide_eq_true_eq] at h'
    exact h ⟨e, he, by rw [h'.1, h'.2]⟩

theorem balance_ok (n : Net F) (losses : Bool) (buses : List Name) :
    (balance n losses buses).toOption.isSome = true ↔
      (∃ p ∈ places n losses, p.1 ∈ buses) ∧ ∀ b ∈ buses, (b, true) ∉ places n losses → loadAt n b = 0 := by
  unfold balance
  have h1 : (entries n losses).all (fun e => !buses.contains e.bus) = true ↔ ¬ ∃ p ∈ places n losses, p.1 ∈ buses := by
    simp [places]
  have h2 : buses.any (fun b => (termsAt n losses b).isEmpty && decide (loadAt n b ≠ 0)) = true ↔
      ¬ ∀ b ∈ buses, (b, true) ∉ places n losses → loadAt n b = 0 := by
    simp only [List.any_eq_true, Bool.and_eq_true, List.isEmpty_iff, termsAt_nil, decide_eq_true_eq]
    push_neg
    rfl
  by_cases g1 : ∃ p ∈ places n losses, p.1 ∈ buses
  · rw [if_neg (by rw [h1]; exact not_not.mpr g1)]
    by_cases g2 : ∀ b ∈ buses, (b, true) ∉ places n losses → loadAt n b = 0
    · rw [if_neg (by rw [h2]; exact not_not.mpr g2)]
      simp only [Except.toOption, Option.isSome_some, true_iff]
      exact ⟨g1, g2⟩
    · rw [if_pos (h2.mpr g2)]
      simp only [Except.toOption, Option.isSome_none, Bool.false_eq_true, false_iff]
      exact fun h => g2 h.2
  · rw [if_pos (h1.mpr g1)]
    simp only [Except.toOption, Option.isSome_none, Bool.false_eq_true, false_iff]
    exact fun h => g1 h.1

theorem mem_meshed (n : Net F) (k : Nat) (b : Name) : b ∈ meshed n k ↔ b ∈ busRefs n ∧ k < (busRefs n).count b := by
  unfold meshed
  simp

theorem balance_ok_turn {n n' : Net F} (h : NodalTurned n n') (losses : Bool) {buses buses' : List Name}
    (hb : ∀ b, b ∈ buses' ↔ b ∈ buses) : (balance n' losses buses').toOption.isSome = (balance n losses buses).toOption.isSome := by
  rw [Bool.eq_iff_iff, balance_ok, balance_ok]
  have hm : ∀ p, p ∈ places n' losses ↔ p ∈ places n losses := fun p => (places_turn h losses).mem_iff
  have hl : ∀ b, loadAt n' b = loadAt n b := fun b => by unfold loadAt; rw [h.loads]
  simp only [hm, hb, hl]

theorem createBalance_some (n : Net F) (losses : Bool) (k : Nat) : (createBalance n losses k).toOption.isSome = true ↔
    (((∃ b, b ∈ meshed n k) ∧ ∃ b ∈ n.buses, b ∉ meshed n k) →
      (balance n losses (n.buses.filter (fun b => !(meshed n k).contains b))).toOption.isSome = true ∧
      (balance n losses (meshed n k)).toOption.isSome = true) ∧
    (¬ ((∃ b, b ∈ meshed n k) ∧ ∃ b ∈ n.buses, b ∉ meshed n k) → (balance n losses n.buses).toOption.isSome = true) := by
  unfold createBalance
  have h1 : (!(meshed n k).isEmpty && !(n.buses.filter (fun b => !(meshed n k).contains b)).isEmpty) = true ↔
      (∃ b, b ∈ meshed n k) ∧ ∃ b ∈ n.buses, b ∉ meshed n k := by
    rw [Bool.and_eq_true, Bool.not_eq_true', Bool.not_eq_true', List.isEmpty_eq_false_iff_exists_mem,
      List.isEmpty_eq_false_iff_exists_mem]
    simp
  by_cases h : (∃ b, b ∈ meshed n k) ∧ ∃ b ∈ n.buses, b ∉ meshed n k
  · simp only [h1.mpr h, if_true]
    rw [imp_iff_right h, and_iff_left (fun g => absurd h g)]
    cases balance n losses (n.buses.filter (fun b => !(meshed n k).contains b)) <;>
      cases balance n losses (meshed n k) <;> simp [Except.toOption]
  · have : ¬ (!(meshed n k).isEmpty && !(n.buses.filter (fun b => !(meshed n k).contains b)).isEmpty) = true := fun g => h (h1.mp g)
    simp only [this]
    rw [and_iff_right (fun g => absurd g h), imp_iff_right h]
    rfl

theorem createBalance_turn {n n' : Net F} (h : NodalTurned n n') (losses : Bool) (k : Nat) :
    (createBalance n' losses k).toOption.isSome = (createBalance n losses k).toOption.isSome := by
  have hm : ∀ b, b ∈ meshed n' k ↔ b ∈ meshed n k := by
    intro b
    rw [mem_meshed, mem_meshed, (busRefs_turn h).mem_iff, (busRefs_turn h).count_eq]
  have hw : ∀ b, b ∈ n'.buses.filter (fun b => !(meshed n' k).contains b) ↔ b ∈ n.buses.filter (fun b => !(meshed n k).contains b) := by
    intro b
    simp only [List.mem_filter, h.buses, List.contains_eq_mem, Bool.not_eq_true', decide_eq_false_iff_not, hm]
  rw [Bool.eq_iff_iff, createBalance_some, createBalance_some, balance_ok_turn h losses hw, balance_ok_turn h losses hm,
    balance_ok_turn h losses (buses := n.buses) (by simp [h.buses])]
  simp only [hm, h.buses]

theorem supplied_turn {w : WNet F} {L T : Name → Bool} {x y : WVar → F} (h : SameButTurned L T x y) (t : Nat) (l : Bool) (b : Name) :
    supplied (nodal (turnNet L T w) t) l (fun v => y (nodalVar t v)) b = supplied (nodal w t) l (fun v => x (nodalVar t v)) b := by
  have hL : ∀ g : BranchW F, y (.of "Line" g.name (.op "s" t)) = if L g.name then - x (.of "Line" g.name (.op "s" t)) else
      x (.of "Line" g.name (.op "s" t)) := by
    intro g
    by_cases hg : L g.name = true
    · rw [if_pos hg]; exact (h _).1 ⟨g.name, t, .inl ⟨rfl, hg⟩⟩
    · rw [if_neg hg]
      refine (h _).2 ?_
      rintro ⟨n, t, ⟨e, h'⟩ | ⟨e, h'⟩⟩
      · simp only [WVar.of.injEq] at e; rw [← e.2.1] at h'; exact hg h'
      · simp at e
  have hT : ∀ g : BranchW F, y (.of "Transformer" g.name (.op "s" t)) = if T g.name then - x (.of "Transformer" g.name (.op "s" t)) else
      x (.of "Transformer" g.name (.op "s" t)) := by
    intro g
    by_cases hg : T g.name = true
    · rw [if_pos hg]; exact (h _).1 ⟨g.name, t, .inr ⟨rfl, hg⟩⟩
    · rw [if_neg hg]
      refine (h _).2 ?_
      rintro ⟨n, t, ⟨e, h'⟩ | ⟨e, h'⟩⟩
      · simp at e
      · simp only [WVar.of.injEq] at e; rw [← e.2.1] at h'; exact hg h'
  unfold supplied nodal turnNet
  simp only [List.map_map, Function.comp_def, nodalVar]
  congr 1; congr 1; congr 1; congr 1; congr 1
  · congr 1
    exact List.map_congr_left fun g _ => by rw [loc_comp h (by decide) (by decide)]
  · congr 1
    exact List.map_congr_left fun g _ => by rw [loc_comp h (by decide) (by decide)]
  · congr 1
    exact List.map_congr_left fun g _ => by rw [loc_comp h (by decide) (by decide), loc_comp h (by decide) (by decide)]
  · congr 1
    refine List.map_congr_left fun g _ => ?_
    have hl : y (.of "Line" g.name (.op "loss" t)) = x (.of "Line" g.name (.op "loss" t)) := loc_line h (by intro s e; simp at e)
    by_cases hg : L g.name = true
    · simp only [hg, if_true, turned, hL g, hl]
      rw [add_comm]
      congr 2; ring
    · simp only [Bool.not_eq_true] at hg; simp [hg, hL g, hl]
  · congr 1
    refine List.map_congr_left fun g _ => ?_
    have hl : y (.of "Transformer" g.name (.op "loss" t)) = x (.of "Transformer" g.name (.op "loss" t)) :=
      loc_line h (by intro s e; simp at e)
    by_cases hg : T g.name = true
    · simp only [hg, if_true, turned, hT g, hl]
      rw [add_comm]
      congr 2; ring
    · simp only [Bool.not_eq_true] at hg; simp [hg, hT g, hl]
  · congr 1
    exact List.map_congr_left fun g _ => by rw [loc_comp h (by decide) (by decide)]

end nodal

/-! ## The whole problem -/

theorem mapM_isSome {α β : Type} (l : List α) (f : α → Option β) : (l.mapM f).isSome = l.all (fun a => (f a).isSome) := by
  induction l with
  | nil => rfl
  | cons a t ih =>
    rw [List.mapM_cons, List.all_cons, ← ih]
    cases f a <;> cases t.mapM f <;> rfl

theorem all_lists {α β : Type} {p : α → Bool} {q : β → Bool} {l : List α} {l' : List β} (h : List.Forall₂ (fun a b => q b = p a) l l') :
    l'.all q = l.all p := by
  induction h with
  | nil => rfl
  | cons h _ ih => rw [List.all_cons, List.all_cons, h, ih]

theorem forall₂_map_self {α β : Type} (l : List α) (f : α → β) {r : α → β → Prop} (h : ∀ a ∈ l, r a (f a)) :
    List.Forall₂ r l (l.map f) := by
  induction l with
  | nil => exact .nil
  | cons a t ih => exact .cons (h a (by simp)) (ih (fun b hb => h b (by simp [hb])))

theorem objNet_turn (L T : Name → Bool) (w : WNet F) : objNet (turnNet L T w) = objNet w := by
  have h : ∀ (R : Name → Bool) (l : List (BranchW F)), (l.map (fun b => if R b.name then turned b else b)).map branchAsset =
      l.map branchAsset := by
    intro R l
    rw [List.map_map]
    refine List.map_congr_left fun b _ => ?_
    simp only [Function.comp_apply]
    split <;> rfl
  unfold objNet
  congr 1
  funext c
  unfold objAssets turnNet
  simp only [h]

theorem nodal_turn (L T : Name → Bool) (w : WNet F) (t : Nat) : NodalTurned (nodal w t) (nodal (turnNet L T w) t) := by
  have h : ∀ (R : Name → Bool) (l : List (BranchW F)), List.Forall₂ (fun b b' => b' = b ∨ b' = turnC b)
      (l.map (fun b => (⟨b.name, b.bus0, b.bus1, b.active t⟩ : Nodal.Branch)))
      ((l.map (fun b => if R b.name then turned b else b)).map (fun b => ⟨b.name, b.bus0, b.bus1, b.active t⟩)) := by
    intro R l
    induction l with
    | nil => exact .nil
    | cons b l ih =>
      refine .cons ?_ ih
      by_cases hb : R b.name = true
      · right; simp only [hb, if_true]; rfl
      · left; simp [hb]
  exact ⟨rfl, rfl, rfl, rfl, rfl, rfl, h L w.lines, h T w.trafos⟩

theorem sound_turn {L T : Name → Bool} {w : WNet F} (hw : Sound w) : Sound (turnNet L T w) := by
  have hb : ∀ (R : Name → Bool) (l : List (BranchW F)), (∀ g ∈ l, g.bus0 ∈ w.buses ∧ g.bus1 ∈ w.buses) →
      ∀ g ∈ l.map (fun b => if R b.name then turned b else b), g.bus0 ∈ w.buses ∧ g.bus1 ∈ w.buses := by
    intro R l h g hg
    obtain ⟨b, hm, rfl⟩ := List.mem_map.mp hg
    split
    · exact (h b hm).symm
    · exact h b hm
  have hn : ∀ (R : Name → Bool) (l : List (BranchW F)), (l.map (fun b => if R b.name then turned b else b)).map (·.name) =
      l.map (·.name) := by
    intro R l
    rw [List.map_map]
    refine List.map_congr_left fun b _ => ?_
    simp only [Function.comp_apply]
    split <;> rfl
  exact ⟨hw.noEmpty, hw.buses, hw.genBus, hw.storeBus, hw.unitBus, hw.loadBus, hb L _ hw.lineBus, hb T _ hw.trafoBus, hw.linkBus,
    hw.gens, hw.links, hw.stores, hw.units, by rw [show (turnNet L T w).lines.map (·.name) = _ from hn L w.lines]; exact hw.lines,
    by rw [show (turnNet L T w).trafos.map (·.name) = _ from hn T w.trafos]; exact hw.trafos⟩

/-- Flows over lines and transformers have no costs. -/
theorem objective_flow {n : Objective.Net F} {o : Objective.Obj F} (h : Objective.objective n = .ok o) :
    ∀ e, e ∈ o.linear ∨ e ∈ o.quadratic → ∀ a t, e.2 ≠ .op "Line" "s" a t ∧ e.2 ≠ .op "Transformer" "s" a t := by
  have hc : ∀ (flag : Objective.Row → Bool) (cost : Objective.Asset F → Nat → F),
      (∀ r ∈ Objective.table.filter flag, (r.comp, r.var) ≠ ("Line", "s") ∧ (r.comp, r.var) ≠ ("Transformer", "s")) →
      ∀ e ∈ (Objective.costType n flag cost).flatten, ∀ a t, e.2 ≠ .op "Line" "s" a t ∧ e.2 ≠ .op "Transformer" "s" a t := by
    intro flag cost hf e he a t
    simp only [Objective.costType, List.mem_flatten, List.mem_map] at he
    obtain ⟨_, ⟨r, hr, rfl⟩, he⟩ := he
    have hr' := hf r (List.mem_of_mem_filter hr)
    unfold Objective.opTerms at he
    simp only [List.mem_flatMap, List.mem_map] at he
    obtain ⟨_, -, t', -, rfl⟩ := he
    constructor
    · rintro h; simp only [Objective.OVar.op.injEq] at h; exact hr'.1 (by rw [h.1, h.2.1])
    · rintro h; simp only [Objective.OVar.op.injEq] at h; exact hr'.2 (by rw [h.1, h.2.1])
  unfold Objective.objective at h
  split at h
  · simp only at h
    split at h
    · cases h
    · simp only [Except.ok.injEq] at h
      subst h
      intro e he a t
      simp only [List.flatten_append, List.mem_append] at he
      rcases he with (((((((he | he) | he) | he) | he) | he) | he)) | he
      · unfold Objective.constTerms at he
        split at he
        · simp at he
        · simp at he; subst he; simp
      · exact hc _ _ (by decide) e he a t
      · exact hc _ _ (by decide) e he a t
      · exact hc _ _ (by decide) e he a t
      · unfold Objective.standByTerms at he
        simp only [List.mem_flatten, List.mem_map] at he
        obtain ⟨_, ⟨c, -, rfl⟩, he⟩ := he
        unfold Objective.opTerms at he
        simp only [List.mem_flatMap, List.mem_map] at he
        obtain ⟨_, -, t', -, rfl⟩ := he
        simp
      · unfold Objective.investTerms at he
        simp only [List.mem_flatten, List.mem_map] at he
        obtain ⟨_, ⟨c, -, rfl⟩, he⟩ := he
        simp only [List.mem_map] at he
        obtain ⟨_, -, rfl⟩ := he
        simp
      · unfold Objective.eventTerms at he
        simp only [List.mem_flatten, List.mem_map] at he
        obtain ⟨_, ⟨r, hr, rfl⟩, he⟩ := he
        simp only [List.mem_flatMap, List.mem_map] at he
        obtain ⟨_, -, t', -, rfl⟩ := he
        have hr' : r.var = "start_up" ∨ r.var = "shut_down" := by
          have := (List.mem_filter.mp (List.mem_of_mem_filter hr)).2
          simpa using this
        rcases hr' with h' | h' <;> simp [h']
      · exact hc _ _ (by decide) e he a t
  · cases h

theorem lines_turn [IsStrictOrderedRing F] {w : WNet F} {L T R : Name → Bool} {comp : Name} {c : Accessor.Cls}
    (hc : c = .line ∨ c = .transformer) {x y : WVar → F} (l : List (BranchW F))
    (hs : ∀ b ∈ l, if R b.name then LocTurned (fun v => x (.of comp b.name v)) (fun v => y (.of comp b.name v)) else
      ∀ v, y (.of comp b.name v) = x (.of comp b.name v)) :
    (∀ b ∈ l.map (fun b => if R b.name then turned b else b), (branchRows (turnNet L T w) c b).isSome = true) ↔
      (∀ b ∈ l, (branchRows w c b).isSome = true) := by
  simp only [List.mem_map, forall_exists_index, and_imp, forall_apply_eq_imp_iff₂]
  refine forall₂_congr fun b hb => ?_
  have hb' := hs b hb
  by_cases hr : R b.name = true
  · simp only [hr, if_true] at hb' ⊢
    rw [(branchRows_turn (w := w) (w' := turnNet L T w) rfl rfl hc hb').1]
  · simp only [hr] at hb' ⊢
    rfl

theorem hold_turn [IsStrictOrderedRing F] {w : WNet F} {L T R : Name → Bool} {comp : Name} {c : Accessor.Cls}
    (hc : c = .line ∨ c = .transformer) {x y : WVar → F} (l : List (BranchW F))
    (hs : ∀ b ∈ l, if R b.name then LocTurned (fun v => x (.of comp b.name v)) (fun v => y (.of comp b.name v)) else
      ∀ v, y (.of comp b.name v) = x (.of comp b.name v)) (hsome : ∀ b ∈ l, (branchRows w c b).isSome = true) :
    (∀ g ∈ l.map (fun b => if R b.name then turned b else b), ∀ rs, branchRows (turnNet L T w) c g = some rs →
      ∀ q ∈ rs, q.holds (fun v => y (.of comp g.name v))) ↔
    (∀ g ∈ l, ∀ rs, branchRows w c g = some rs → ∀ q ∈ rs, q.holds (fun v => x (.of comp g.name v))) := by
  simp only [List.mem_map, forall_exists_index, and_imp, forall_apply_eq_imp_iff₂]
  refine forall₂_congr fun b hb => ?_
  have hb' := hs b hb
  by_cases hr : R b.name = true
  · simp only [hr, if_true] at hb' ⊢
    obtain ⟨h1, h2⟩ := branchRows_turn (w := w) (w' := turnNet L T w) (b := b) rfl rfl hc hb'
    obtain ⟨rs, hrs⟩ := Option.isSome_iff_exists.mp (hsome b hb)
    obtain ⟨rs', hrs'⟩ := Option.isSome_iff_exists.mp (h1.trans (hsome b hb))
    have := h2 rs' rs hrs' hrs
    rw [hrs, hrs']
    constructor
    · intro h r hr; cases hr; exact this.mp (h _ rfl)
    · intro h r hr; cases hr; exact this.mpr (h _ rfl)
  · simp only [hr] at hb' ⊢
    have : (fun v => y (.of comp b.name v)) = fun v => x (.of comp b.name v) := funext hb'
    simp only [Bool.false_eq_true, if_false]
    rw [this]
    rfl

theorem locs_line {L T : Name → Bool} {x y : WVar → F} (h : SameButTurned L T x y) (l : List (BranchW F)) :
    ∀ b ∈ l, if L b.name then LocTurned (fun v => x (.of "Line" b.name v)) (fun v => y (.of "Line" b.name v)) else
      ∀ v, y (.of "Line" b.name v) = x (.of "Line" b.name v) := by
  intro b _
  by_cases hb : L b.name = true
  · rw [if_pos hb]
    exact ⟨fun t => (h _).1 ⟨b.name, t, .inl ⟨rfl, hb⟩⟩, fun v hv => loc_line h hv⟩
  · rw [if_neg hb]
    intro v
    refine (h _).2 ?_
    rintro ⟨n, t, ⟨e, h'⟩ | ⟨e, h'⟩⟩
    · simp only [WVar.of.injEq] at e; rw [← e.2.1] at h'; exact hb h'
    · simp at e

theorem locs_trafo {L T : Name → Bool} {x y : WVar → F} (h : SameButTurned L T x y) (l : List (BranchW F)) :
    ∀ b ∈ l, if T b.name then LocTurned (fun v => x (.of "Transformer" b.name v)) (fun v => y (.of "Transformer" b.name v)) else
      ∀ v, y (.of "Transformer" b.name v) = x (.of "Transformer" b.name v) := by
  intro b _
  by_cases hb : T b.name = true
  · rw [if_pos hb]
    exact ⟨fun t => (h _).1 ⟨b.name, t, .inr ⟨rfl, hb⟩⟩, fun v hv => loc_line h hv⟩
  · rw [if_neg hb]
    intro v
    refine (h _).2 ?_
    rintro ⟨n, t, ⟨e, h'⟩ | ⟨e, h'⟩⟩
    · simp at e
    · simp only [WVar.of.injEq] at e; rw [← e.2.1] at h'; exact hb h'

theorem ownRows_some {w : WNet F} : (ownRows w).isSome = true ↔ (∀ g ∈ w.gens, (genRows w g).isSome = true) ∧
    (∀ g ∈ w.links, (linkRows w g).isSome = true) ∧ (∀ g ∈ w.stores, (storeRows w g).isSome = true) ∧
    (∀ g ∈ w.units, (sunitRows w g).isSome = true) ∧ (∀ g ∈ w.lines, (branchRows w .line g).isSome = true) ∧
    (∀ g ∈ w.trafos, (branchRows w .transformer g).isSome = true) := by
  unfold ownRows tagged
  rw [Option.isSome_map, mapM_isSome]
  simp only [List.all_append, List.all_map, Function.comp_def, id_eq, Option.isSome_map, Bool.and_eq_true, List.all_eq_true, and_assoc]

/-- C123: turning lines and transformers round changes nothing but the signs of their flows.  The problem can be set up just as
well; it has the same feasible points, the same value of the objective and the same constant.  Rows handed over from outside are taken
to be equivalent; for the voltage law this is `kvl_turn`. -/
theorem turn_irrelevant [IsStrictOrderedRing F] (L T : Name → Bool) {w : WNet F} (hw : Sound w) {other other' : List (Con WVar F)}
    (ho : ∀ x y : WVar → F, SameButTurned L T x y → (Feasible y other' ↔ Feasible x other)) :
    ((createModel (turnNet L T w) other').isSome = (createModel w other).isSome) ∧
    ∀ P P', createModel w other = some P → createModel (turnNet L T w) other' = some P' →
      ∀ x y, SameButTurned L T x y → (FeasibleIn P' y ↔ FeasibleIn P x) ∧ P'.value y = P.value x ∧
        costOf (turnNet L T w) P' y = costOf w P x := by
  constructor
  · have h1 : (ownRows (turnNet L T w)).isSome = (ownRows w).isSome := by
      rw [Bool.eq_iff_iff, ownRows_some, ownRows_some]
      have hx := turnPoint_same L T (fun _ => (0 : F))
      exact and_congr Iff.rfl (and_congr Iff.rfl (and_congr Iff.rfl (and_congr Iff.rfl (and_congr
        (lines_turn (w := w) (comp := "Line") (x := fun _ => 0) (y := turnPoint L T (fun _ => 0)) (.inl rfl) w.lines (locs_line hx w.lines))
        (lines_turn (w := w) (comp := "Transformer") (x := fun _ => 0) (y := turnPoint L T (fun _ => 0)) (.inr rfl) w.trafos
          (locs_trafo hx w.trafos))))))
    have h2 : (balanceRows (turnNet L T w)).isSome = (balanceRows w).isSome := by
      unfold balanceRows
      rw [Option.isSome_map, Option.isSome_map, mapM_isSome, mapM_isSome]
      simp only [Option.isSome_map]
      have : ∀ t, (Nodal.createBalance (nodal (turnNet L T w) t) ((turnNet L T w).tangents != 0) (turnNet L T w).threshold).toOption.isSome =
          (Nodal.createBalance (nodal w t) (w.tangents != 0) w.threshold).toOption.isSome := fun t => createBalance_turn (nodal_turn L T w t) _ _
      simp only [this]
      rfl
    unfold createModel
    rw [objNet_turn]
    cases e1 : ownRows (turnNet L T w) <;> cases e2 : ownRows w <;> cases e3 : balanceRows (turnNet L T w) <;>
      cases e4 : balanceRows w <;> simp_all
  · intro P P' hP hP' x y h
    obtain ⟨own, bal, o, g1, g2, g3, g4, g5, g6, g7⟩ := createModel_parts hP
    obtain ⟨own', bal', o', k1, k2, k3, k4, k5, k6, k7⟩ := createModel_parts hP'
    rw [objNet_turn, g3] at k3
    cases k3
    have hval : ∀ e, e ∈ o.linear ∨ e ∈ o.quadratic → y (objVar e.2) = x (objVar e.2) := by
      intro e he
      refine (h _).2 ?_
      rintro ⟨n, t, ⟨e', -⟩ | ⟨e', -⟩⟩
      · have := (objective_flow g3 e he n t).1
        cases hv : e.2 with
        | op a b c d =>
          rw [hv] at e' this
          simp only [objVar, WVar.of.injEq, Loc.op.injEq] at e'
          exact this (by rw [e'.1, e'.2.1, e'.2.2.1, e'.2.2.2])
        | nom a b c => rw [hv] at e'; simp [objVar] at e'
        | const => rw [hv] at e'; simp [objVar] at e'
      · have := (objective_flow g3 e he n t).2
        cases hv : e.2 with
        | op a b c d =>
          rw [hv] at e' this
          simp only [objVar, WVar.of.injEq, Loc.op.injEq] at e'
          exact this (by rw [e'.1, e'.2.1, e'.2.2.1, e'.2.2.2])
        | nom a b c => rw [hv] at e'; simp [objVar] at e'
        | const => rw [hv] at e'; simp [objVar] at e'
    have hlin : lin y P'.linear = lin x P.linear := by
      rw [k4, g4]
      unfold lin
      congr 1
      rw [List.map_map, List.map_map]
      refine List.map_congr_left fun e he => ?_
      simp only [Function.comp_apply]
      rw [hval e (.inl he)]
    refine ⟨?_, ?_, ?_⟩
    · rw [feasible_iff (sound_turn hw) hP' y, feasible_iff hw hP x]
      obtain ⟨-, -, -, -, m5, m6⟩ := ownRows_some.mp (by rw [g1]; rfl : (ownRows w).isSome = true)
      have hcomp : ∀ comp name, comp ≠ "Line" → comp ≠ "Transformer" →
          (fun v => y (.of comp name v)) = fun v => x (.of comp name v) := fun comp name a b => funext fun v => loc_comp h a b
      refine and_congr ?_ (and_congr ?_ (and_congr ?_ (ho x y h)))
      · have e5 := hold_turn (L := L) (T := T) (.inl rfl) w.lines (locs_line h w.lines) m5
        have e6 := hold_turn (L := L) (T := T) (.inr rfl) w.trafos (locs_trafo h w.trafos) m6
        constructor
        · intro ha
          refine ⟨?_, ?_, ?_, ?_, e5.mp ha.lines, e6.mp ha.trafos⟩
          · intro g hg rs hr; rw [← hcomp _ _ (by decide) (by decide)]; exact ha.gens g hg rs hr
          · intro g hg rs hr; rw [← hcomp _ _ (by decide) (by decide)]; exact ha.links g hg rs hr
          · intro g hg rs hr; rw [← hcomp _ _ (by decide) (by decide)]; exact ha.stores g hg rs hr
          · intro g hg rs hr; rw [← hcomp _ _ (by decide) (by decide)]; exact ha.units g hg rs hr
        · intro ha
          refine ⟨?_, ?_, ?_, ?_, e5.mpr ha.lines, e6.mpr ha.trafos⟩
          · intro g hg rs hr; rw [hcomp _ _ (by decide) (by decide)]; exact ha.gens g hg rs hr
          · intro g hg rs hr; rw [hcomp _ _ (by decide) (by decide)]; exact ha.links g hg rs hr
          · intro g hg rs hr; rw [hcomp _ _ (by decide) (by decide)]; exact ha.stores g hg rs hr
          · intro g hg rs hr; rw [hcomp _ _ (by decide) (by decide)]; exact ha.units g hg rs hr
      · unfold Balance
        refine forall₄_congr fun t _ b _ => ?_
        rw [supplied_turn h]
        rfl
      · rw [objNet_turn, (h _).2 (by rintro ⟨n, t, ⟨e, -⟩ | ⟨e, -⟩⟩ <;> simp at e)]
    · unfold Program.value
      rw [hlin, k5, g5, List.map_map, List.map_map]
      congr 2
      refine List.map_congr_left fun e he => ?_
      simp only [Function.comp_apply]
      rw [hval e (.inr he)]
    · unfold costOf
      rw [hlin, objNet_turn]


end Verif.Opt.Whole

/-! ## The voltage law -/

namespace Verif.Opt.Kvl

open Verif.Graph

variable {F : Type} [Field F]

def turnEdge (e : Edge) : Edge := ⟨e.bus1, e.bus0, e.inf, e.active⟩

/-- The branches with positions in `R` are turned round. -/
def turnEdges (R : Nat → Bool) (es : List Edge) : List Edge := es.mapIdx (fun i e => if R i then turnEdge e else e)

theorem turnEdges_get (R : Nat → Bool) (es : List Edge) (i : Nat) :
    (turnEdges R es)[i]? = (es[i]?).map (fun e => if R i then turnEdge e else e) := by
  unfold turnEdges
  rw [List.getElem?_mapIdx]

theorem tied_turn (R : Nat → Bool) (es : List Edge) (w f f' : Nat → F) (hf : ∀ i, f' i = if R i then - f i else f i) :
    HasAnglesTied (turnEdges R es) w f' ↔ HasAnglesTied es w f := by
  unfold HasAnglesTied
  refine exists_congr fun θ => ?_
  constructor
  · intro h i e he hi
    have := h i (if R i then turnEdge e else e) (by rw [turnEdges_get, he]; rfl)
    rw [hf] at this
    by_cases hr : R i = true
    · simp only [hr, if_true, turnEdge] at this
      have := this hi
      split at this <;> rename_i ha
      · rw [if_pos ha]; linear_combination - this
      · rw [if_neg ha]; exact this.symm
    · simp only [hr] at this
      exact this hi
  · intro h i e' he' hi
    rw [turnEdges_get] at he'
    obtain ⟨e, he, rfl⟩ := Option.map_eq_some_iff.mp he'
    rw [hf]
    by_cases hr : R i = true
    · simp only [hr, if_true, turnEdge] at hi ⊢
      have := h i e he hi
      split at this <;> rename_i ha
      · rw [if_pos ha]; linear_combination - this
      · rw [if_neg ha]; exact this.symm
    · simp only [hr] at hi ⊢
      exact h i e he hi

/-- C123 for the voltage law: whatever cycles are found in the graph of the turned branches, its rows hold for the turned flows if and
only if the old rows hold for the old flows. -/
theorem kvl_turn [LinearOrder F] [IsStrictOrderedRing F] (R : Nat → Bool) (es : List Edge) (w : Nat → F) (cycles cycles' : List (List Name))
    (hb : CycleBasis F es cycles) (hb' : CycleBasis F (turnEdges R es) cycles') :
    ∃ rows rows', kvlCons es w cycles = .ok rows ∧ kvlCons (turnEdges R es) w cycles' = .ok rows' ∧
      ∀ f f' : Nat → F, (∀ i, f' i = if R i then - f i else f i) → (Feasible f' rows' ↔ Feasible f rows) := by
  obtain ⟨rows, h1, h2⟩ := kvl_tied es w cycles hb
  obtain ⟨rows', h1', h2'⟩ := kvl_tied (turnEdges R es) w cycles' hb'
  exact ⟨rows, rows', h1, h1', fun f f' hf => by rw [h2, h2', tied_turn R es w f f' hf]⟩

theorem adj_turn (R : Nat → Bool) (es : List Edge) (u v : Name) : Adj (turnEdges R es) u v ↔ Adj es u v := by
  unfold Adj
  refine exists_congr fun i => ?_
  constructor
  · rintro ⟨e', he', hi, h⟩
    rw [turnEdges_get] at he'
    obtain ⟨e, he, rfl⟩ := Option.map_eq_some_iff.mp he'
    refine ⟨e, he, ?_, ?_⟩
    · split at hi <;> exact hi
    · split at h
      · exact h.symm.imp And.symm And.symm
      · exact h
  · rintro ⟨e, he, hi, h⟩
    refine ⟨_, by rw [turnEdges_get, he]; rfl, ?_, ?_⟩
    · split <;> exact hi
    · split
      · exact h.symm.imp And.symm And.symm
      · exact h

/-- The cycles found before are still a basis. -/
theorem basis_turn (R : Nat → Bool) {es : List Edge} {cycles : List (List Name)} (h : CycleBasis F es cycles) :
    CycleBasis F (turnEdges R es) cycles := by
  have hc : ∀ c, ClosedIn (turnEdges R es) c ↔ ClosedIn es c := fun c => by
    unfold ClosedIn
    simp only [adj_turn]
  exact ⟨fun c hm => (hc c).mpr (h.closed c hm), fun D h1 h2 c hm => h.spans D h1 h2 c ((hc c).mp hm)⟩

/-- A triangle with a doubled side, where the second side is turned round. -/
example : ∃ rows rows', kvlCons (exEdges true) (fun i => (i : ℚ) + 1) [["a", "b", "c"]] = .ok rows ∧
    kvlCons (turnEdges (fun i => i == 1) (exEdges true)) (fun i => (i : ℚ) + 1) [["a", "b", "c"]] = .ok rows' ∧
    ∀ f f' : Nat → ℚ, (∀ i, f' i = if i == 1 then - f i else f i) → (Feasible f' rows' ↔ Feasible f rows) :=
  kvl_turn _ _ _ _ _ (exEdges_basis true) (basis_turn _ (exEdges_basis true))

end Verif.Opt.Kvl

namespace Verif.Opt.Whole

variable {F : Type} [Field F] [LinearOrder F]

/-- The rows of the voltage law of one sub-network and snapshot in the whole problem; `var` gives the flow of each branch. -/
def lawRows (es : List Graph.Edge) (z : Nat → F) (cycles : List (List Name)) (var : Nat → WVar) : List (Con WVar F) :=
  ((Kvl.kvlCons es z cycles).toOption.getD []).map (remap var)

/-- So `turn_irrelevant` can be used with the rows of the voltage law. -/
theorem law_turn [IsStrictOrderedRing F] (L T : Name → Bool) (R : Nat → Bool) (es : List Graph.Edge) (z : Nat → F)
    (cycles cycles' : List (List Name)) (hb : Graph.CycleBasis F es cycles) (hb' : Graph.CycleBasis F (Kvl.turnEdges R es) cycles')
    (var : Nat → WVar) (hR : ∀ i, R i = true ↔ Turns L T (var i)) (x y : WVar → F) (h : SameButTurned L T x y) :
    Feasible y (lawRows (Kvl.turnEdges R es) z cycles' var) ↔ Feasible x (lawRows es z cycles var) := by
  obtain ⟨rows, rows', h1, h2, h3⟩ := Kvl.kvl_turn R es z cycles cycles' hb hb'
  unfold lawRows
  rw [h1, h2]
  change (∀ q ∈ _, Con.holds _ q) ↔ ∀ q ∈ _, Con.holds _ q
  simp only [Except.toOption, Option.getD_some]
  rw [all_moved, all_moved]
  refine h3 _ _ fun i => ?_
  by_cases hr : R i = true
  · rw [if_pos hr]; exact (h _).1 ((hR i).mp hr)
  · rw [if_neg hr]; exact (h _).2 (fun g => hr ((hR i).mpr g))

/-- The line of the network of `WholeExample.lean` turned round. -/
example (x y : WVar → ℚ) (h : SameButTurned (fun _ => true) (fun _ => false) x y) :
    ∃ P', createModel (turnNet (fun _ => true) (fun _ => false) exNet) exOther = some P' ∧
      (FeasibleIn P' y ↔ FeasibleIn exModel x) ∧ P'.value y = exModel.value x := by
  obtain ⟨h1, h2⟩ := turn_irrelevant (fun _ => true) (fun _ => false) exSound (other := exOther) (other' := exOther) (by
    intro x y h
    simp only [exOther, feasible_cons, Con.holds, lin, List.map_cons, List.map_nil, List.sum_cons, List.sum_nil,
      loc_comp h (comp := "Generator") (by decide) (by decide)]
    simp [Feasible])
  rw [exModel_some] at h1
  obtain ⟨P', hP'⟩ := Option.isSome_iff_exists.mp h1
  exact ⟨P', hP', (h2 _ _ exModel_eq hP' x y h).1, (h2 _ _ exModel_eq hP' x y h).2.1⟩

example : (turnNet (fun _ => true) (fun _ => false) exNet).lines.map (fun b => (b.bus0, b.bus1)) = [("C", "A")] ∧
    exNet.lines.map (fun b => (b.bus0, b.bus1)) = [("A", "C")] := by decide +kernel

end Verif.Opt.Whole
