import Verif.Access.Model
import Mathlib.Data.List.Basic
import Mathlib.Tactic.Common
import Mathlib.Tactic.FinCases

/-!
# C147: every way to a component leads to the same tables
-/

namespace Verif.Access

/-! ## Specification -/

namespace Spec

/-- The names under which the classes of components are known. -/
def both : List (String × String) :=
  [("SubNetwork", "sub_networks"), ("Bus", "buses"), ("Carrier", "carriers"), ("GlobalConstraint", "global_constraints"), ("Line", "lines"),
   ("LineType", "line_types"), ("Transformer", "transformers"), ("TransformerType", "transformer_types"), ("Link", "links"), ("Load", "loads"),
   ("Generator", "generators"), ("StorageUnit", "storage_units"), ("Store", "stores"), ("ShuntImpedance", "shunt_impedances"), ("Shape", "shapes")]

/-- What the tables of a network are, by list name: all a user thinks of. -/
abbrev View (D : Type) := String → Table → D

def View.update {D : Type} (v : View D) (l : String) (t : Table) (d : D) : View D := fun l' t' => if l' = l ∧ t' = t then d else v l' t'

/-- All ways to read. -/
structure Shows {D : Type} (cls : String → Bool) (me : Nat) (s : State D) (v : View D) : Prop where
  /-- `n.generators`, `n.generators_t` -/
  property : ∀ p ∈ both, ∀ t, getProperty s p.2 t = .ok (v p.2 t)
  /-- `n.static("Generator")`, `n.dynamic("Generator")`, and with `"generators"` -/
  call : ∀ p ∈ both, ∀ t, staticOf s p.1 t = .ok (v p.2 t) ∧ staticOf s p.2 t = .ok (v p.2 t)
  /-- `n.components[...]`, `n.components....`, `as_components(n, ...)`: one object, under both names -/
  object : ∀ p ∈ both, ∃ r, (∀ k, k = p.1 ∨ k = p.2 → getItem s k = .ok r ∧ getAttr cls s k = .ok (.val r) ∧ asComponents cls s me (.str k) = .ok (.val r)) ∧
    asComponents cls s me (.comp r) = .ok (.val r) ∧ dictGet s p.2 = some r ∧ (s.heap r).name = p.1 ∧ (s.heap r).listName = p.2 ∧
    ∀ t, table (s.heap r) t = v p.2 t

/-- Ways to write, by the name used. -/
inductive Write (D : Type) where
  /-- `n.generators = d` -/
  | property (l : String) (t : Table) (d : D)
  /-- `n.components["Generator"].static = d` -/
  | item (k : String) (t : Table) (d : D)
  /-- `n.components.generators.static = d` -/
  | attr (k : String) (t : Table) (d : D)
  /-- `as_components(n, "Generator").static = d` -/
  | as_ (k : String) (t : Table) (d : D)
  /-- `n.components["my_components"] = other` -/
  | custom (k : String) (r : Nat)

/-- What is done. -/
def run {D : Type} (cls : String → Bool) (me : Nat) (s : State D) : Write D → Except Err (State D)
  | .property l t d => setProperty s l t d
  | .item k t d => match getItem s k with
    | .ok r => .ok (write s r t d)
    | .error e => .error e
  | .attr k t d => match getAttr cls s k with
    | .ok (.val r) => .ok (write s r t d)
    | .ok (.method _) => .error .attribute
    | .error e => .error e
  | .as_ k t d => match asComponents cls s me (.str k) with
    | .ok (.val r) => .ok (write s r t d)
    | .ok (.method _) => .error .attribute
    | .error e => .error e
  | .custom k r => .ok (setItem s k r)

def runAll {D : Type} (cls : String → Bool) (me : Nat) (s : State D) : List (Write D) → Except Err (State D)
  | [] => .ok s
  | w :: ws => match run cls me s w with
    | .ok s' => runAll cls me s' ws
    | .error e => .error e

/-- What is meant, for the class `p`. -/
inductive Means {D : Type} : Write D → View D → View D → Prop
  | property {p} (hp : p ∈ both) (t d v) : Means (.property p.2 t d) v (View.update v p.2 t d)
  | item {p k} (hp : p ∈ both) (hk : k = p.1 ∨ k = p.2) (t d v) : Means (.item k t d) v (View.update v p.2 t d)
  | attr {p k} (hp : p ∈ both) (hk : k = p.1 ∨ k = p.2) (t d v) : Means (.attr k t d) v (View.update v p.2 t d)
  | as_ {p k} (hp : p ∈ both) (hk : k = p.1 ∨ k = p.2) (t d v) : Means (.as_ k t d) v (View.update v p.2 t d)
  | custom {k} (hk : ∀ p ∈ both, k ≠ p.2) (r v) : Means (.custom k r) v v

inductive MeansAll {D : Type} : List (Write D) → View D → View D → Prop
  | nil (v) : MeansAll [] v v
  | cons {w ws v v' v''} : Means w v v' → MeansAll ws v' v'' → MeansAll (w :: ws) v v''

end Spec

open Spec

variable {D : Type}

/-! ## Lemmas -/

/-- The dictionary knows an object for each class. -/
structure Inv (me : Nat) (s : State D) (v : View D) : Prop where
  object : ∀ p ∈ both, ∃ r, Dict.get? s.store p.2 = some r ∧ (s.heap r).name = p.1 ∧ (s.heap r).listName = p.2 ∧ (s.heap r).net = some me ∧
    ∀ t, table (s.heap r) t = v p.2 t

theorem alias_class : ∀ p ∈ both, Dict.get? aliases p.1 = some p.2 ∧ Dict.get? aliases p.2 = none := by decide

theorem list_inj : ∀ p ∈ both, ∀ q ∈ both, p.2 = q.2 → p = q := by decide

theorem item_of {s : State D} {p : String × String} (hp : p ∈ both) {r : Nat} (h : Dict.get? s.store p.2 = some r) {k : String} (hk : k = p.1 ∨ k = p.2) :
    getItem s k = .ok r := by
  obtain ⟨a1, a2⟩ := alias_class p hp
  unfold getItem
  rcases hk with rfl | rfl
  · simp [a1, h]
  · simp [a2, h]

theorem attr_of {cls : String → Bool} (hc : ∀ p ∈ both, cls p.1 = false ∧ cls p.2 = false) {s : State D} {p : String × String} (hp : p ∈ both) {r : Nat}
    (h : Dict.get? s.store p.2 = some r) {k : String} (hk : k = p.1 ∨ k = p.2) : getAttr cls s k = .ok (.val r) := by
  have hk' : cls k = false := by
    rcases hk with rfl | rfl
    · exact (hc p hp).1
    · exact (hc p hp).2
  unfold getAttr
  simp [hk', item_of hp h hk]

theorem as_of {cls : String → Bool} (hc : ∀ p ∈ both, cls p.1 = false ∧ cls p.2 = false) {s : State D} {me : Nat} {p : String × String} (hp : p ∈ both) {r : Nat}
    (h : Dict.get? s.store p.2 = some r) {k : String} (hk : k = p.1 ∨ k = p.2) : asComponents cls s me (.str k) = .ok (.val r) := by
  obtain ⟨a1, a2⟩ := alias_class p hp
  unfold asComponents
  rcases hk with rfl | rfl
  · simp [a1, attr_of hc hp h (Or.inr rfl)]
  · simp [a2, attr_of hc hp h (Or.inr rfl)]

theorem shows_of_inv {cls : String → Bool} (hc : ∀ p ∈ both, cls p.1 = false ∧ cls p.2 = false) {me : Nat} {s : State D} {v : View D} (h : Inv me s v) :
    Shows cls me s v := by
  constructor
  · intro p hp t
    obtain ⟨r, h1, -, -, -, h2⟩ := h.object p hp
    simp [getProperty, dictGet, h1, h2]
  · intro p hp t
    obtain ⟨r, h1, -, -, -, h2⟩ := h.object p hp
    simp [staticOf, item_of hp h1 (Or.inl rfl), item_of hp h1 (Or.inr rfl), h2]
  · intro p hp
    obtain ⟨r, h1, h3, h4, h5, h2⟩ := h.object p hp
    refine ⟨r, fun k hk => ⟨item_of hp h1 hk, attr_of hc hp h1 hk, as_of hc hp h1 hk⟩, ?_, h1, h3, h4, h2⟩
    simp [asComponents, h5]

theorem write_table (c : Comp D) (t t' : Table) (d : D) : table (putTable c t d) t' = if t' = t then d else table c t' := by
  cases t <;> cases t' <;> rfl

theorem write_inv {me : Nat} {s : State D} {v : View D} (h : Inv me s v) {p : String × String} (hp : p ∈ both) {r : Nat} (hr : Dict.get? s.store p.2 = some r)
    (t : Table) (d : D) : Inv me (write s r t d) (View.update v p.2 t d) := by
  constructor
  intro q hq
  obtain ⟨r', h1, h2, h3, h4, h5⟩ := h.object q hq
  refine ⟨r', h1, ?_⟩
  by_cases e : r' = r
  · subst e
    have hpq : p = q := by
      obtain ⟨r2, g1, -, g3, -⟩ := h.object p hp
      rw [hr] at g1
      obtain rfl := Option.some.inj g1
      exact list_inj p hp q hq (g3.symm.trans h3)
    subst hpq
    have hw : (write s r' t d).heap r' = putTable (s.heap r') t d := by simp [write]
    rw [hw]
    have n1 : (putTable (s.heap r') t d).name = (s.heap r').name := by cases t <;> rfl
    have n2 : (putTable (s.heap r') t d).listName = (s.heap r').listName := by cases t <;> rfl
    have n3 : (putTable (s.heap r') t d).net = (s.heap r').net := by cases t <;> rfl
    refine ⟨n1.trans h2, n2.trans h3, n3.trans h4, fun t' => ?_⟩
    rw [write_table]
    simp [View.update, h5]
  · have hw : (write s r t d).heap r' = s.heap r' := by simp [write, e]
    rw [hw]
    refine ⟨h2, h3, h4, fun t' => ?_⟩
    have hne : q.2 ≠ p.2 := by
      intro heq
      rw [heq, hr] at h1
      exact e (Option.some.inj h1).symm
    rw [h5]
    simp [View.update, hne]

theorem run_inv {cls : String → Bool} (hc : ∀ p ∈ both, cls p.1 = false ∧ cls p.2 = false) {me : Nat} {s : State D} {v v' : View D} (h : Inv me s v)
    {w : Write D} (hw : Means w v v') : ∃ s', run cls me s w = .ok s' ∧ Inv me s' v' := by
  cases hw with
  | @property p hp t d _ =>
    obtain ⟨r, h1, -⟩ := h.object p hp
    exact ⟨_, by simp [run, setProperty, item_of hp h1 (Or.inr rfl)], write_inv h hp h1 t d⟩
  | @item p k hp hk t d _ =>
    obtain ⟨r, h1, -⟩ := h.object p hp
    exact ⟨_, by simp [run, item_of hp h1 hk], write_inv h hp h1 t d⟩
  | @attr p k hp hk t d _ =>
    obtain ⟨r, h1, -⟩ := h.object p hp
    exact ⟨_, by simp [run, attr_of hc hp h1 hk], write_inv h hp h1 t d⟩
  | @as_ p k hp hk t d _ =>
    obtain ⟨r, h1, -⟩ := h.object p hp
    exact ⟨_, by simp [run, as_of hc hp h1 hk], write_inv h hp h1 t d⟩
  | @custom k hk r _ =>
    refine ⟨_, rfl, ⟨fun p hp => ?_⟩⟩
    obtain ⟨r', h1, h2⟩ := h.object p hp
    refine ⟨r', ?_, h2⟩
    change Dict.get? (Dict.set s.store k r) p.2 = some r'
    rw [Dict.get?_set_ne _ _ (hk p hp)]
    exact h1

theorem runAll_inv {cls : String → Bool} (hc : ∀ p ∈ both, cls p.1 = false ∧ cls p.2 = false) {me : Nat} {ws : List (Write D)} :
    ∀ {s : State D} {v v' : View D}, Inv me s v → MeansAll ws v v' → ∃ s', runAll cls me s ws = .ok s' ∧ Inv me s' v' := by
  induction ws with
  | nil =>
    intro s v v' h hw
    cases hw
    exact ⟨s, rfl, h⟩
  | cons w ws ih =>
    intro s v v' h hw
    cases hw with
    | cons h1 h2 =>
      obtain ⟨s1, e1, i1⟩ := run_inv hc h h1
      obtain ⟨s2, e2, i2⟩ := ih i1 h2
      exact ⟨s2, by simp [runAll, e1, e2], i2⟩

/-- Later classes do not disturb earlier ones. -/
theorem initLoop_keeps (me : Nat) (fresh : String → D × D × D) : ∀ (cs : List (String × String)) (n : Nat) (s : State D) (l : String) (r : Nat), r < n →
    (∀ c ∈ cs, c.2 ≠ l) → Dict.get? s.store l = some r →
    Dict.get? (initLoop me fresh n cs s).store l = some r ∧ (initLoop me fresh n cs s).heap r = s.heap r := by
  intro cs
  induction cs with
  | nil => intro n s l r _ _ h; exact ⟨h, rfl⟩
  | cons c cs ih =>
    intro n s l r hr hl h
    obtain ⟨h1, h2⟩ := ih (n + 1) ⟨Dict.set s.store c.2 n, fun q => if q = n then ⟨c.1, c.2, some me, (fresh c.1).1, (fresh c.1).2.1, (fresh c.1).2.2⟩ else s.heap q⟩ l r
      (by omega) (fun c' hc' => hl c' (List.mem_cons_of_mem _ hc')) (by
        change Dict.get? (Dict.set s.store c.2 n) l = some r
        rw [Dict.get?_set_ne _ _ (hl c List.mem_cons_self)]
        exact h)
    refine ⟨h1, h2.trans ?_⟩
    have : r ≠ n := by omega
    simp [this]

theorem initLoop_finds (me : Nat) (fresh : String → D × D × D) : ∀ (cs : List (String × String)) (n : Nat) (s : State D), (cs.map (·.2)).Nodup → ∀ c ∈ cs,
    ∃ r, Dict.get? (initLoop me fresh n cs s).store c.2 = some r ∧
      (initLoop me fresh n cs s).heap r = ⟨c.1, c.2, some me, (fresh c.1).1, (fresh c.1).2.1, (fresh c.1).2.2⟩ := by
  intro cs
  induction cs with
  | nil => intro n s _ c hc; cases hc
  | cons c0 cs ih =>
    intro n s hn c hc
    obtain ⟨hn1, hn2⟩ := List.nodup_cons.mp hn
    rcases List.mem_cons.mp hc with rfl | hc
    · obtain ⟨h1, h2⟩ := initLoop_keeps me fresh cs (n + 1)
        ⟨Dict.set s.store c.2 n, fun q => if q = n then ⟨c.1, c.2, some me, (fresh c.1).1, (fresh c.1).2.1, (fresh c.1).2.2⟩ else s.heap q⟩ c.2 n (by omega)
        (fun c' hc' e => hn1 (List.mem_map.mpr ⟨c', hc', e⟩)) (Dict.get?_set_self _ _ _)
      exact ⟨n, h1, h2.trans (by simp)⟩
    · exact ih (n + 1) _ hn2 c hc

theorem init_inv (me : Nat) (fresh : String → D × D × D) (heap : Nat → Comp D) (next : Nat) (v : View D)
    (hv : ∀ p ∈ both, v p.2 .static = (fresh p.1).2.1 ∧ v p.2 .dynamic = (fresh p.1).2.2) : Inv me (init me fresh heap next) v := by
  constructor
  intro p hp
  have hn : (classes.map (·.2)).Nodup := by decide
  have hm : ∀ p ∈ both, p ∈ classes := by decide
  obtain ⟨r, h1, h2⟩ := initLoop_finds me fresh classes next ⟨[], heap⟩ hn p (hm p hp)
  refine ⟨r, h1, ?_⟩
  unfold init
  rw [h2]
  refine ⟨rfl, rfl, rfl, fun t => ?_⟩
  cases t
  · exact (hv p hp).1.symm
  · exact (hv p hp).2.symm

/-! ## Theorems -/

/-- **C147.** After any sequence of assignments to tables, through whatever way and under whichever of its names a class is reached, all ways to read show the
last table written to that class and nothing else has changed.  Entries added under other names do no harm. -/
theorem last_write {cls : String → Bool} (hc : ∀ p ∈ both, cls p.1 = false ∧ cls p.2 = false) (me : Nat) (fresh : String → D × D × D) (heap : Nat → Comp D)
    (next : Nat) {v v' : View D} (hv : ∀ p ∈ both, v p.2 .static = (fresh p.1).2.1 ∧ v p.2 .dynamic = (fresh p.1).2.2)
    {ws : List (Write D)} (hw : MeansAll ws v v') : ∃ s, runAll cls me (init me fresh heap next) ws = .ok s ∧ Shows cls me s v' := by
  obtain ⟨s, e, i⟩ := runAll_inv hc (init_inv me fresh heap next v hv) hw
  exact ⟨s, e, shows_of_inv hc i⟩

/-- Reading does not depend on the way, for any dictionary of objects: the list name and the class name lead to the same result, be it an error. -/
theorem names_agree (cls : String → Bool) (s : State D) (me : Nat) {p : String × String} (hp : p ∈ both) :
    getItem s p.1 = getItem s p.2 ∧ asComponents cls s me (.str p.1) = asComponents cls s me (.str p.2) ∧ ∀ t, staticOf s p.1 t = staticOf s p.2 t := by
  obtain ⟨a1, a2⟩ := alias_class p hp
  have h : getItem s p.1 = getItem s p.2 := by simp [getItem, a1, a2]
  refine ⟨h, by simp [asComponents, a1, a2], fun t => ?_⟩
  unfold staticOf
  rw [h]

/-- Several names at once: the objects one by one, in the order asked for, and an error if one of them is not known. -/
theorem items_one_by_one (s : State D) (ks : List String) :
    (∀ rs, getItems s ks = .ok rs ↔ List.Forall₂ (fun k r => getItem s k = .ok r) ks rs) ∧ ((∃ e, getItems s ks = .error e) ↔ ∃ k ∈ ks, ∃ e, getItem s k = .error e) := by
  induction ks with
  | nil =>
    refine ⟨fun rs => ?_, ?_⟩
    · cases rs with
      | nil => simp [getItems]
      | cons a as => exact ⟨fun h => by simp [getItems] at h, fun h => nomatch h⟩
    · simp [getItems]
  | cons k ks ih =>
    cases hk : getItem s k with
    | error e =>
      refine ⟨fun rs => ⟨fun h => ?_, fun h => ?_⟩, ⟨fun _ => ⟨k, List.mem_cons_self, e, hk⟩, fun _ => ⟨e, by simp [getItems, hk]⟩⟩⟩
      · simp [getItems, hk] at h
      · cases h with
        | cons h1 _ => rw [hk] at h1; cases h1
    | ok r =>
      cases hks : getItems s ks with
      | error e =>
        refine ⟨fun rs => ⟨fun h => ?_, fun h => ?_⟩, ⟨fun _ => ?_, fun _ => ⟨e, by simp [getItems, hk, hks]⟩⟩⟩
        · simp [getItems, hk, hks] at h
        · cases h with
          | cons h1 h2 => rw [(ih.1 _).mpr h2] at hks; cases hks
        · obtain ⟨k', hk', e'⟩ := ih.2.mp ⟨e, hks⟩
          exact ⟨k', List.mem_cons_of_mem _ hk', e'⟩
      | ok rs' =>
        refine ⟨fun rs => ⟨fun h => ?_, fun h => ?_⟩, ⟨fun h => ?_, fun h => ?_⟩⟩
        · simp only [getItems, hk, hks, Except.ok.injEq] at h
          subst h
          exact List.Forall₂.cons hk ((ih.1 rs').mp hks)
        · cases h with
          | cons h1 h2 =>
            rw [hk] at h1
            obtain rfl := Except.ok.inj h1
            have := (ih.1 _).mpr h2
            rw [hks] at this
            obtain rfl := Except.ok.inj this
            simp [getItems, hk, hks]
        · obtain ⟨e, h⟩ := h
          simp [getItems, hk, hks] at h
        · obtain ⟨k', hk', e', he'⟩ := h
          rcases List.mem_cons.mp hk' with rfl | hk'
          · rw [hk] at he'; cases he'
          · obtain ⟨e, he⟩ := ih.2.mpr ⟨k', hk', e', he'⟩
            rw [hks] at he; cases he

/-- An object is only taken for a component of the network it is attached to. -/
theorem as_components_own (cls : String → Bool) (s : State D) (me r : Nat) : (asComponents cls s me (.comp r) = .ok (.val r) ↔ (s.heap r).net = some me) ∧
    ((s.heap r).net ≠ some me → asComponents cls s me (.comp r) = .error .value) := by
  unfold asComponents
  dsimp only
  cases h : (s.heap r).net with
  | none => simp [h]
  | some m => by_cases e : m = me <;> simp [h, e]

theorem mem_set {K V : Type} [DecidableEq K] (k : K) (v : V) : ∀ (d : Dict K V) (e : K × V), e ∈ Dict.set d k v → e ∈ d ∨ e = (k, v) := by
  intro d
  induction d with
  | nil => intro e h; simpa [Dict.set] using h
  | cons a d ih =>
    intro e h
    unfold Dict.set at h
    split at h
    · rcases List.mem_cons.mp h with rfl | h
      · exact Or.inr (by simp_all)
      · exact Or.inl (List.mem_cons_of_mem _ h)
    · rcases List.mem_cons.mp h with rfl | h
      · exact Or.inl List.mem_cons_self
      · exact (ih e h).imp (List.mem_cons_of_mem _) id

theorem initLoop_good (me : Nat) (fresh : String → D × D × D) : ∀ (cs : List (String × String)) (n : Nat) (s : State D),
    (∀ e ∈ s.store, e.2 < n ∧ (s.heap e.2).defaults = (fresh (s.heap e.2).name).1) →
    ∀ e ∈ (initLoop me fresh n cs s).store, ((initLoop me fresh n cs s).heap e.2).defaults = (fresh ((initLoop me fresh n cs s).heap e.2).name).1 := by
  intro cs
  induction cs with
  | nil => intro n s h e he; exact (h e he).2
  | cons c cs ih =>
    intro n s h
    refine ih (n + 1) ⟨Dict.set s.store c.2 n, fun q => if q = n then ⟨c.1, c.2, some me, (fresh c.1).1, (fresh c.1).2.1, (fresh c.1).2.2⟩ else s.heap q⟩ ?_
    intro e he
    rcases mem_set _ _ _ _ he with he | rfl
    · obtain ⟨h1, h2⟩ := h e he
      have hne : e.2 ≠ n := by omega
      refine ⟨by omega, ?_⟩
      simp only [if_neg hne]
      exact h2
    · exact ⟨by simp, by simp⟩

theorem foldl_attrs (name : Nat → String) (a : Nat → D) (k : String) (x : D) : ∀ (rs : List Nat) (d : Dict String D),
    (∀ r ∈ rs, name r = k → a r = x) → ((∃ r ∈ rs, name r = k) ∨ Dict.get? d k = some x) → Dict.get? (rs.foldl (fun d r => Dict.set d (name r) (a r)) d) k = some x := by
  intro rs
  induction rs with
  | nil =>
    rintro d - (⟨r, hr, -⟩ | h)
    · cases hr
    · exact h
  | cons r rs ih =>
    intro d h1 h2
    refine ih _ (fun q hq => h1 q (List.mem_cons_of_mem _ hq)) ?_
    by_cases e : name r = k
    · right
      rw [← e, Dict.get?_set_self, h1 r List.mem_cons_self e]
    · rcases h2 with ⟨q, hq, hk⟩ | h2
      · rcases List.mem_cons.mp hq with rfl | hq
        · exact absurd hk e
        · exact Or.inl ⟨q, hq, hk⟩
      · right
        rw [Dict.get?_set_ne _ _ e]
        exact h2

/-- `n.component_attrs`: under the name of each class the attributes it was made with. -/
theorem attrs_by_class (me : Nat) (fresh : String → D × D × D) (heap : Nat → Comp D) (next : Nat) : ∀ p ∈ both,
    Dict.get? (componentAttrs (init me fresh heap next)) p.1 = some (fresh p.1).1 := by
  intro p hp
  have hn : (classes.map (·.2)).Nodup := by decide
  have hm : ∀ p ∈ both, p ∈ classes := by decide
  obtain ⟨r, h1, h2⟩ := initLoop_finds me fresh classes next ⟨[], heap⟩ hn p (hm p hp)
  have hg := initLoop_good me fresh classes next ⟨[], heap⟩ (by intro e he; cases he)
  unfold componentAttrs
  refine foldl_attrs (fun r => ((init me fresh heap next).heap r).name) (fun r => ((init me fresh heap next).heap r).defaults) p.1 _ _ _ ?_ (Or.inl ⟨r, ?_, ?_⟩)
  · intro q hq hk
    obtain ⟨e, he, rfl⟩ := List.mem_map.mp hq
    have := hg e he
    rw [← hk]
    exact this
  · exact List.mem_map.mpr ⟨_, Dict.mem_of_get? h1, rfl⟩
  · change ((initLoop me fresh next classes ⟨[], heap⟩).heap r).name = p.1
    rw [h2]

/-- ... whatever tables have been written since. -/
theorem attrs_kept (s : State D) (r : Nat) (t : Table) (d : D) : componentAttrs (write s r t d) = componentAttrs s := by
  have h : ∀ q, ((write s r t d).heap q).name = (s.heap q).name ∧ ((write s r t d).heap q).defaults = (s.heap q).defaults := by
    intro q
    by_cases e : q = r
    · subst e
      cases t <;> simp [write, putTable]
    · simp [write, e]
  unfold componentAttrs
  simp only [h]
  rfl

/-! ## Dictionaries with attributes -/

/-- **C147.** What is set by attribute is found by attribute and by item, and nothing else changes; names of the class itself are refused. -/
theorem box_attr {V : Type} (cls : String → Bool) (d : Dict String V) (k : String) (v : V) :
    (cls k = false → ∃ d', Box.setAttr cls d k v = .ok d' ∧ Box.getAttr cls d' k = .ok (.val v) ∧ ∀ q, Dict.get? d' q = if q = k then some v else Dict.get? d q) ∧
    (cls k = true → Box.setAttr cls d k v = .error .attribute) := by
  refine ⟨fun h => ⟨Dict.set d k v, by simp [Box.setAttr, h], ?_, fun q => ?_⟩, fun h => by simp [Box.setAttr, h]⟩
  · simp [Box.getAttr, h, Dict.get?_set_self]
  · rw [Dict.get?_set]
    by_cases e : k = q
    · simp [e]
    · simp [e, Ne.symm e]

/-! ## Where ways do not agree -/

/-- Attributes of dictionaries in Python. -/
def pyAttrs (k : String) : Bool :=
  ["clear", "copy", "fromkeys", "get", "items", "keys", "pop", "popitem", "setdefault", "update", "values", "_re_pattern"].contains k || k.startsWith "__"

theorem py_apart : ∀ p ∈ both, pyAttrs p.1 = false ∧ pyAttrs p.2 = false := by decide +kernel

/-- Full statement: what is put into `n.components` under a name is found under that name. -/
def Found (D : Type) : Prop := ∀ (s : State D) (k : String) (r : Nat), getItem (setItem s k r) k = .ok r

/-- **C147, not met.** What is assigned under the name of a class is stored, but not found under it. -/
theorem assigned_not_found (d : D) : ¬ Found D := by
  intro h
  have h0 := h ⟨[], fun _ => ⟨"", "", none, d, d, d⟩⟩ "Generator" 7
  have h1 : getItem (setItem (⟨[], fun _ => ⟨"", "", none, d, d, d⟩⟩ : State D) "Generator" 7) "Generator" = .error .key := by
    have e1 : Dict.get? aliases "Generator" = some "generators" := by decide
    have e2 : Dict.get? (Dict.set ([] : Dict String Nat) "Generator" 7) "generators" = none := by decide
    simp [getItem, setItem, e1, e2]
  rw [h1] at h0
  cases h0

/-- For all names: found exactly if it is not the name of a class, or what was there already. -/
theorem assigned_found_partial (s : State D) (k : String) (r : Nat) :
    ((∀ p ∈ both, k ≠ p.1) → getItem (setItem s k r) k = .ok r) ∧ ((∃ p ∈ both, k = p.1) → getItem (setItem s k r) k = getItem s k) := by
  constructor
  · intro h
    have ha : Dict.get? aliases k = none := by
      cases hk : Dict.get? aliases k with
      | none => rfl
      | some l =>
        have hm : ∀ p ∈ aliases, p ∈ both := by decide
        exact absurd rfl (h _ (hm _ (Dict.mem_of_get? hk)))
    unfold getItem setItem
    simp [ha, Dict.get?_set_self]
  · rintro ⟨p, hp, rfl⟩
    obtain ⟨a1, -⟩ := alias_class p hp
    have hne : p.1 ≠ p.2 := by revert p; decide
    unfold getItem setItem
    simp [a1, Dict.get?_set_ne _ _ hne]

/-- `n.components.get("Generator")` finds nothing in a new network, and `del n.components.Generator` fails, although `n.components["Generator"]` is there. -/
theorem class_name_unknown_to_dict (me : Nat) (fresh : String → D × D × D) (heap : Nat → Comp D) (next : Nat) :
    dictGet (init me fresh heap next) "Generator" = none ∧ delItem (init me fresh heap next) "Generator" = .error .key ∧
    ∃ r, getItem (init me fresh heap next) "Generator" = .ok r := by
  have hd : dictGet (init me fresh heap next) "Generator" = none := rfl
  refine ⟨hd, ?_, ?_⟩
  · unfold delItem Dict.contains
    rw [show Dict.get? (init me fresh heap next).store "Generator" = none from hd]
    rfl
  · obtain ⟨r, h, -⟩ := (init_inv me fresh heap next (fun l t => match both.find? (fun p => p.2 == l), t with
      | some p, .static => (fresh p.1).2.1
      | some p, .dynamic => (fresh p.1).2.2
      | none, _ => (fresh "").1) (by intro p hp; fin_cases hp <;> exact ⟨rfl, rfl⟩)).object ("Generator", "generators") (by decide)
    exact ⟨r, item_of (p := ("Generator", "generators")) (by decide) h (Or.inl rfl)⟩

/-- Nobody can ask whether a component is in the dictionary. -/
theorem contains_raises (s : State D) (k : String) : contains s k = .error .deprecation := rfl

/-- What is stored under a name such as `values` cannot be read as an attribute. -/
theorem values_hidden (v : D) : Dict.get? (Dict.set [] "values" v) "values" = some v ∧ Box.getAttr pyAttrs (Dict.set [] "values" v) "values" = .ok (.method "values") :=
  ⟨rfl, rfl⟩

/-! ## Types of components -/

/-- Equality of types is an equivalence if that of tables is. -/
theorem ctype_equivalence {T : Type} {equal : T → T → Bool} (h1 : ∀ a, equal a a = true) (h2 : ∀ a b, equal a b = true → equal b a = true)
    (h3 : ∀ a b c, equal a b = true → equal b c = true → equal a c = true) :
    (∀ a : CType T, CType.eq equal a a = true) ∧ (∀ a b : CType T, CType.eq equal a b = true → CType.eq equal b a = true) ∧
    ∀ a b c : CType T, CType.eq equal a b = true → CType.eq equal b c = true → CType.eq equal a c = true := by
  refine ⟨fun a => by simp [CType.eq, h1], fun a b h => ?_, fun a b c h h' => ?_⟩
  · simp only [CType.eq, Bool.and_eq_true, beq_iff_eq] at h ⊢
    exact ⟨⟨⟨⟨h.1.1.1.1.symm, h.1.1.1.2.symm⟩, h.1.1.2.symm⟩, h.1.2.symm⟩, h2 _ _ h.2⟩
  · simp only [CType.eq, Bool.and_eq_true, beq_iff_eq] at h h' ⊢
    exact ⟨⟨⟨⟨h.1.1.1.1.trans h'.1.1.1.1, h.1.1.1.2.trans h'.1.1.1.2⟩, h.1.1.2.trans h'.1.1.2⟩, h.1.2.trans h'.1.2⟩, h3 _ _ _ h.2 h'.2⟩

/-- Types are equal exactly if names, description, category and attributes are; a missing category is the same as one called `nan`. -/
theorem ctype_eq_iff {T : Type} (equal : T → T → Bool) (a b : CType T) : CType.eq equal a b = true ↔
    a.name = b.name ∧ a.listName = b.listName ∧ a.description = b.description ∧ a.category.getD "nan" = b.category.getD "nan" ∧ equal a.defaults b.defaults = true := by
  have h : ∀ c, categoryText c = c.getD "nan" := by intro c; cases c <;> rfl
  simp only [CType.eq, Bool.and_eq_true, beq_iff_eq, h, and_assoc]

/-- Types with other standard types count as equal. -/
theorem standard_types_ignored : ∃ a b : CType Nat, CType.eq (· == ·) a b = true ∧ a.standardTypes ≠ b.standardTypes :=
  ⟨⟨"LineType", "line_types", "", some "standard_type", 0, some 1⟩, ⟨"LineType", "line_types", "", some "standard_type", 0, some 2⟩, rfl, by decide⟩

/-! ## Examples -/

def blank : Comp Nat := ⟨"", "", none, 0, 0, 0⟩

/-- A new network with tables numbered by the lengths of names. -/
def exState : State Nat := init 5 (fun c => (0, c.length, c.length + 100)) (fun _ => blank) 3

example : getProperty exState "generators" .static = .ok 9 ∧ staticOf exState "StorageUnit" .dynamic = .ok 111 ∧ getAttr pyAttrs exState "Line" = .ok (.val 7) := by decide +kernel

def exWrites : List (Write Nat) := [.property "generators" .static 77, .item "Generator" .static 78, .attr "buses" .dynamic 79, .as_ "Line" .static 80, .custom "Generator" 0]

example : MeansAll exWrites (fun l t => if l = "generators" ∧ t = .static then 9 else 0)
    (View.update (View.update (View.update (View.update (fun l t => if l = "generators" ∧ t = .static then 9 else 0) "generators" .static 77) "generators" .static 78) "buses" .dynamic 79) "lines" .static 80) :=
  .cons (.property (p := ("Generator", "generators")) (by decide) _ _ _)
    (.cons (.item (p := ("Generator", "generators")) (by decide) (Or.inl rfl) _ _ _)
      (.cons (.attr (p := ("Bus", "buses")) (by decide) (Or.inr rfl) _ _ _)
        (.cons (.as_ (p := ("Line", "lines")) (by decide) (Or.inl rfl) _ _ _)
          (.cons (.custom (by decide) _ _) (.nil _)))))

example : ∃ s, runAll pyAttrs 5 exState exWrites = .ok s ∧ getProperty s "generators" .static = .ok 78 ∧ staticOf s "lines" .static = .ok 80 ∧
    staticOf s "Bus" .dynamic = .ok 79 ∧ staticOf s "Link" .static = .ok 4 := by
  have h : (match runAll pyAttrs 5 exState exWrites with
    | .ok s => decide (getProperty s "generators" .static = .ok 78 ∧ staticOf s "lines" .static = .ok 80 ∧
        staticOf s "Bus" .dynamic = .ok 79 ∧ staticOf s "Link" .static = .ok 4)
    | .error _ => false) = true := by decide +kernel
  cases hs : runAll pyAttrs 5 exState exWrites with
  | error e => simp [hs] at h
  | ok s =>
    simp only [hs, decide_eq_true_eq] at h
    exact ⟨s, rfl, h⟩

example : getItems exState ["Generator", "lines"] = .ok [13, 7] ∧ getItems exState ["Generator", "none"] = .error .key := by decide +kernel

end Verif.Access
