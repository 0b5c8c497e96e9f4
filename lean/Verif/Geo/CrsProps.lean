import Verif.Geo.Crs
import Mathlib.Tactic.NormNum
import Mathlib.Tactic.Ring
import Mathlib.Algebra.Field.Rat
import Mathlib.Algebra.Order.Ring.Rat

/-!
# C153: places stay where they are when the coordinate system changes
-/

namespace Verif.Geo.Crs

variable {S F : Type} [DecidableEq S]

/-! ## Specification -/

/-- Where on earth a point of a system is, and that the library moves points between systems without moving them on earth. -/
structure Earth (k : Systems S F) (E : Type) where
  at_ : S → F × F → E
  stays : ∀ a b p, at_ b (k.move a b p) = at_ a p

/-- What the library keeps: nothing moves within a system, and there and back again is where one started; text and codes name what they were made from. -/
structure Faithful (k : Systems S F) : Prop where
  same : ∀ a p, k.move a a p = p
  back : ∀ a b p, k.move b a (k.move a b p) = p
  text : ∀ a, k.fromWkt (k.wkt a) = some a
  code : ∀ a c, k.epsg a = some c → k.fromEpsg c = some a

/-- Two networks show a bus at the same place. -/
def SameBuses {k : Systems S F} {E : Type} (e : Earth k E) (n m : Net S F) : Prop :=
  List.Forall₂ (fun b c => b.1 = c.1 ∧ e.at_ n.crs b.2 = e.at_ m.crs c.2) n.buses m.buses

/-- Two networks have the same outlines. -/
def SameShapes {k : Systems S F} {E : Type} (e : Earth k E) (n m : Net S F) : Prop :=
  List.Forall₂ (fun b c => b.1 = c.1 ∧ List.Forall₂ (fun p q => e.at_ n.shapesCrs p = e.at_ m.shapesCrs q) b.2 c.2) n.shapes m.shapes

/-- Shapes are in the system that the network names. -/
def OneSystem (n : Net S F) : Prop := n.shapes ≠ [] → n.shapesCrs = n.crs

/-- Changing the system keeps buses where they are. -/
def BusesStay (S F E : Type) [DecidableEq S] : Prop := ∀ (k : Systems S F) (e : Earth k E) (n : Net S F) (new : S), Faithful k → SameBuses e n (toCrs k n new)

/-- The system of a network can be set. -/
def Settable (S F : Type) [DecidableEq S] : Prop := ∀ (k : Systems S F) (new : S), Faithful k → ∃ m, setCrs (fresh k) new = some m ∧ m.crs = new

/-- Every network can be copied. -/
def Copies (S F : Type) [DecidableEq S] : Prop := ∀ (k : Systems S F) (acts : List (Act S F)), Faithful k → (copyPart k (session k acts)).isSome = true

/-! ## Changing the system -/

theorem forall₂_map {A B C : Type} {R : A → B → Prop} {f : C → A} {g : C → B} {l : List C} (h : ∀ x ∈ l, R (f x) (g x)) : List.Forall₂ R (l.map f) (l.map g) := by
  induction l with
  | nil => exact .nil
  | cons x l ih => exact .cons (h x List.mem_cons_self) (ih fun y hy => h y (List.mem_cons_of_mem _ hy))

theorem forall₂_self {A C : Type} {R : C → A → Prop} {g : C → A} {l : List C} (h : ∀ x ∈ l, R x (g x)) : List.Forall₂ R l (l.map g) := by
  have := forall₂_map (R := R) (f := id) (g := g) (l := l) h
  simpa using this

/-- **C153.** Shapes stay where they are, for any two systems. -/
theorem shapes_stay {k : Systems S F} {E : Type} (e : Earth k E) (n : Net S F) (new : S) : SameShapes e n (toCrs k n new) := by
  unfold SameShapes toCrs
  split_ifs with h
  · simp only
    subst h
    have := forall₂_self (R := fun (b c : Name × List (F × F)) => b.1 = c.1 ∧ List.Forall₂ (fun p q => e.at_ n.shapesCrs p = e.at_ n.shapesCrs q) b.2 c.2) (g := id) (l := n.shapes)
      (fun x _ => ⟨rfl, by simpa using forall₂_self (R := fun (p q : F × F) => e.at_ n.shapesCrs p = e.at_ n.shapesCrs q) (g := id) (l := x.2) fun _ _ => rfl⟩)
    simpa using this
  · exact forall₂_self fun x _ => ⟨rfl, forall₂_self fun p _ => (e.stays _ _ p).symm⟩

/-- **C153, in part.** Buses stay where they are if both systems have the horizontal axis first, which EPSG 4326, the default, has not. -/
theorem buses_stay_partial {k : Systems S F} {E : Type} (e : Earth k E) (n : Net S F) (new : S) (h0 : k.upFirst n.crs = false) (h1 : k.upFirst new = false) :
    SameBuses e n (toCrs k n new) := by
  refine forall₂_self fun b _ => ⟨rfl, ?_⟩
  simp only [toCrs, transformer, h0, h1, swapIf]
  exact (e.stays _ _ _).symm

/-- **C153.** Where a bus ends up in general: the place of the point with its coordinates in the order of the authority, read in that order. -/
theorem bus_lands {k : Systems S F} {E : Type} (e : Earth k E) (n : Net S F) (new : S) (i : Nat) (b : Name) (x y : F) (hb : n.buses[i]? = some (b, x, y)) :
    ∃ p q, (toCrs k n new).buses[i]? = some (b, p, q) ∧
      e.at_ new (if k.upFirst new then (q, p) else (p, q)) = e.at_ n.crs (if k.upFirst n.crs then (y, x) else (x, y)) := by
  refine ⟨(transformer k n.crs new (x, y)).1, (transformer k n.crs new (x, y)).2, by simp only [toCrs, List.getElem?_map, hb, Option.map_some], ?_⟩
  unfold transformer swapIf
  cases k.upFirst new <;> cases k.upFirst n.crs <;> exact e.stays _ _ _

/-- **C153.** There and back again gives the same coordinates, for any two systems. -/
theorem there_and_back {k : Systems S F} (hk : Faithful k) {n : Net S F} (h : OneSystem n) (new : S) :
    (toCrs k (toCrs k n new) n.crs).buses = n.buses ∧ (toCrs k (toCrs k n new) n.crs).shapes = n.shapes ∧ (toCrs k (toCrs k n new) n.crs).crs = n.crs ∧
      (toCrs k n new).crs = new ∧ (toCrs k n new).shapesCrs = new := by
  refine ⟨?_, ?_, rfl, rfl, rfl⟩
  · have hs : ∀ (b : Bool) (p : F × F), swapIf b (swapIf b p) = p := by
      intro b p
      cases b <;> rfl
    simp only [toCrs, List.map_map]
    conv_rhs => rw [← List.map_id n.buses]
    refine List.map_congr_left fun b _ => ?_
    simp only [Function.comp_apply, transformer, hs, hk.back, id]
  · cases hn : n.shapes with
    | nil => simp [toCrs, hn]
    | cons s l =>
      have hc := h (by rw [hn]; exact List.cons_ne_nil _ _)
      rw [← hn]
      simp only [toCrs, hc]
      by_cases e : n.crs = new
      · simp [e]
      · rw [if_neg (Ne.symm e), if_neg e, List.map_map]
        conv_rhs => rw [← List.map_id n.shapes]
        refine List.map_congr_left fun s _ => ?_
        simp [Function.comp_def, hk.back]

/-! ## Shapes and network name the same system -/

theorem add_fresh {V : Type} (l : List (Name × V)) : l.filter (fun b => !(([] : List (Name × V)).map (·.1)).contains b.1) = l := by simp

theorem step_one {k : Systems S F} (hc : k.carries = true) {n m : Net S F} (h : OneSystem n) (a : Act S F) (hr : a.run k n = some m) : OneSystem m := by
  have hadd : ∀ {n m : Net S F} {given new}, addShapes n given new = some m → m.shapesCrs = n.crs ∧ m.crs = n.crs ∧ m.buses = n.buses := by
    intro n m given new h
    unfold addShapes at h
    split_ifs at h
    simp only [Option.some.injEq] at h
    subst h
    exact ⟨rfl, rfl, rfl⟩
  cases a with
  | toCrs new =>
    simp only [Act.run, Option.some.injEq] at hr
    subst hr
    exact fun _ => rfl
  | setCrs new =>
    simp only [Act.run, setCrs] at hr
    split_ifs at hr
    simp only [Option.some.injEq] at hr
    subst hr
    exact fun _ => rfl
  | setSrid code =>
    simp only [Act.run, setSrid] at hr
    cases hf : k.fromEpsg code with
    | none => simp [hf] at hr
    | some c =>
      simp only [hf, Option.bind_some, setCrs] at hr
      split_ifs at hr
      simp only [Option.some.injEq] at hr
      subst hr
      exact fun _ => rfl
  | addBuses bs =>
    simp only [Act.run, Option.some.injEq] at hr
    subst hr
    exact h
  | addShapes given new =>
    have := hadd hr
    exact fun _ => this.1.trans this.2.1.symm
  | slice keep =>
    simp only [Act.run, slice] at hr
    cases hs : addShapes (addBuses (fresh k) (n.buses.filter (fun b => keep b.1))) (carried k n) n.shapes with
    | none => simp [hs] at hr
    | some q =>
      simp only [hs, Option.map_some, Option.some.injEq] at hr
      subst hr
      intro hne
      have hq := hadd hs
      simp only at hne ⊢
      unfold addShapes at hs
      split_ifs at hs with hall
      simp only [Option.some.injEq] at hs
      subst hs
      simp only [addBuses, fresh, carried, hc, if_true, reduceCtorEq, false_or, Option.some.injEq] at hall
      simp only [addBuses, fresh, List.nil_append] at hne
      have : n.shapes ≠ [] := by
        intro e
        rw [e] at hne
        exact hne rfl
      simp only [addBuses, fresh]
      rw [← h this, hall.2]
  | copyPart =>
    simp only [Act.run, copyPart] at hr
    have hset : ∀ {q m : Net S F} {c : Nat}, setSrid k q c = some m → m.crs = m.shapesCrs := by
      intro q m c h
      unfold setSrid at h
      cases hf : k.fromEpsg c with
      | none => simp [hf] at h
      | some c =>
        simp only [hf, Option.bind_some, setCrs] at h
        split_ifs at h
        simp only [Option.some.injEq] at h
        subst h
        rfl
    obtain ⟨q, -, hq⟩ := Option.bind_eq_some_iff.mp hr
    obtain ⟨c, -, hc⟩ := Option.bind_eq_some_iff.mp hq
    exact fun _ => (hset hc).symm
  | reload =>
    simp only [Act.run, load, save] at hr
    obtain ⟨c, -, hq⟩ := Option.bind_eq_some_iff.mp hr
    by_cases he : (n.buses.isEmpty || n.shapes.isEmpty) = true
    · replace hq := (if_pos he).symm.trans hq
      simp only [Option.some.injEq] at hq
      subst hq
      exact fun hne => absurd rfl hne
    · replace hq := (if_neg he).symm.trans hq
      have := hadd hq
      exact fun _ => this.1.trans this.2.1.symm

/-- **C153.** Whatever is done with a network, its shapes are in the system the network names, as long as geometries carry their system along. -/
theorem one_system {k : Systems S F} (hc : k.carries = true) (acts : List (Act S F)) : OneSystem (session k acts) := by
  unfold session
  suffices ∀ n : Net S F, OneSystem n → OneSystem (acts.foldl (fun n a => (a.run k n).getD n) n) from this _ (fun h => absurd rfl h)
  induction acts with
  | nil => exact fun n h => h
  | cons a l ih =>
    intro n h
    refine ih _ ?_
    cases hr : a.run k n with
    | none =>
      simp only [hr]
      exact h
    | some m =>
      simp only [hr]
      exact step_one hc h a hr

/-- **C153.** Shapes are added with the coordinates they have, and refused exactly if they are of another system than that of the network. -/
theorem adds {n : Net S F} (h : OneSystem n) (given : Option S) (new : List (Name × List (F × F))) : ((addShapes n given new).isSome = true ↔ ∀ c, given = some c → c = n.crs) ∧
    ∀ m, addShapes n given new = some m → m.crs = n.crs ∧ m.buses = n.buses ∧ (∀ s ∈ n.shapes, s ∈ m.shapes) ∧ ∀ s ∈ new, (∀ t ∈ n.shapes, t.1 ≠ s.1) → s ∈ m.shapes := by
  have h1 : n.shapes.isEmpty = true ∨ n.shapesCrs = n.crs := by
    by_cases e : n.shapes = []
    · exact .inl (by simp [e])
    · exact .inr (h e)
  unfold addShapes
  constructor
  · cases given with
    | none => simpa using h1
    | some c =>
      by_cases e : c = n.crs
      · simpa [e] using h1
      · simp [e]
  · intro m hm
    split_ifs at hm
    simp only [Option.some.injEq] at hm
    subst hm
    refine ⟨rfl, rfl, fun s hs => List.mem_append_left _ hs, fun s hs hd => List.mem_append_right _ (List.mem_filter.mpr ⟨hs, ?_⟩)⟩
    simpa [List.contains_iff_mem] using fun x hx => hd (s.1, x) hx rfl

/-! ## Setting the system -/

/-- **C153.** Setting the system is refused unless the shapes are in it already; then the network names that system, and all else stays. -/
theorem set_iff (n m : Net S F) (new : S) : setCrs n new = some m ↔ n.shapesCrs = new ∧ m = { n with crs := new } := by
  unfold setCrs
  split_ifs with h
  · subst h
    simp [eq_comm]
  · simp [h]

/-- **C153.** So for a network with shapes setting the system never changes anything. -/
theorem set_nothing {n m : Net S F} (h : OneSystem n) (hn : n.shapes ≠ []) {new : S} (hs : setCrs n new = some m) : m = n := by
  obtain ⟨e, rfl⟩ := (set_iff n m new).mp hs
  have := h hn
  cases n
  simp only at *
  rw [← e, this]

/-! ## Files, slices and copies -/

theorem add_all {n : Net S F} (bs : List (Name × F × F)) (h : n.buses = []) : (addBuses n bs) = { n with buses := bs } := by
  simp [addBuses, h]

/-- **C153.** A file brings back the system, the buses and the shapes. Only shapes without any bus are lost. -/
theorem reloads {k : Systems S F} (hk : Faithful k) {n : Net S F} (h : OneSystem n) (hb : n.buses ≠ [] ∨ n.shapes = []) :
    ∃ m, load k (save k n) = some m ∧ m.crs = n.crs ∧ m.buses = n.buses ∧ m.shapes = n.shapes ∧ (n.shapes ≠ [] → m = n) := by
  unfold load save
  simp only [hk.text, Option.bind_some]
  rw [add_all _ rfl]
  cases hs : n.shapes with
  | nil => exact ⟨{ fresh k with crs := n.crs, buses := n.buses }, by simp, rfl, rfl, rfl, fun h => absurd rfl h⟩
  | cons s l =>
    have hne : n.shapes ≠ [] := by rw [hs]; exact List.cons_ne_nil _ _
    have hbe : n.buses.isEmpty = false := by
      rcases hb with hb | hb
      · simpa using hb
      · exact absurd hb hne
    simp only [hbe, List.isEmpty_cons, Bool.or_self, if_false, addShapes, fresh, List.isEmpty_nil, true_or, and_self, if_true, List.map_nil,
      List.nil_append, Bool.false_eq_true]
    have hall : List.filter (fun s : Name × List (F × F) => !List.contains [] s.1) (s :: l) = s :: l := by simp
    refine ⟨_, rfl, rfl, rfl, hall, fun _ => ?_⟩
    rw [hall, ← hs]
    have := h hne
    cases n
    simp only at *
    rw [this]

/-- **C153.** A slice has the buses asked for, with their coordinates, and names the same system; a slice is refused if geometries carry a system other than the default. -/
theorem slices (k : Systems S F) (n : Net S F) (keep : Name → Bool) : (∀ m, slice k n keep = some m → m.crs = n.crs ∧ (∀ b, b ∈ m.buses ↔ b ∈ n.buses ∧ keep b.1 = true) ∧ m.shapes = n.shapes) ∧
    ((slice k n keep).isSome = true ↔ (k.carries = true → n.shapesCrs = k.dflt)) := by
  constructor
  · intro m h
    unfold slice at h
    rw [add_all _ rfl] at h
    obtain ⟨q, hq, rfl⟩ := Option.map_eq_some_iff.mp h
    unfold addShapes at hq
    split_ifs at hq
    simp only [Option.some.injEq] at hq
    subst hq
    exact ⟨rfl, fun b => by simp, by simp [fresh]⟩
  · unfold slice addShapes carried
    rw [add_all _ rfl]
    cases hc : k.carries <;> simp [fresh]

/-- **C153, in part.** A copy of part of the snapshots is made only if the network is in the default system, and then it has the same buses and shapes in the same system. -/
theorem copies_partial {k : Systems S F} (hk : Faithful k) (hd : (k.epsg k.dflt).isSome = true) {n : Net S F} (h : OneSystem n) :
    ((copyPart k n).isSome = true ↔ n.crs = k.dflt) ∧ ∀ m, copyPart k n = some m → m.crs = n.crs ∧ m.buses = n.buses ∧ m.shapes = n.shapes ∧ (n.shapes ≠ [] → m = n) := by
  have hset : ∀ q : Net S F, (k.epsg n.crs).bind (setSrid k q) = if (k.epsg n.crs).isSome = true ∧ q.shapesCrs = n.crs then some { q with crs := n.crs } else none := by
    intro q
    cases he : k.epsg n.crs with
    | none => simp
    | some c =>
      simp only [Option.bind_some, setSrid, hk.code _ _ he, setCrs, Option.isSome_some, true_and]
      split_ifs with h1
      · rw [h1]
      · rfl
  unfold copyPart
  rw [add_all _ rfl]
  simp only [hset]
  cases hs : n.shapes with
  | nil =>
    simp only [List.isEmpty_nil, if_true, Option.bind_some, fresh]
    constructor
    · constructor
      · intro hx
        split_ifs at hx with h1
        · exact h1.2.symm
        · simp at hx
      · intro e
        rw [if_pos ⟨e ▸ hd, e.symm⟩]
        rfl
    · intro m hm
      split_ifs at hm
      simp only [Option.some.injEq] at hm
      subst hm
      exact ⟨rfl, rfl, rfl, fun h => absurd rfl h⟩
  | cons s l =>
    have hne : n.shapes ≠ [] := by rw [hs]; exact List.cons_ne_nil _ _
    have hsc := h hne
    have hall : ∀ g : Option S, addShapes { fresh k with buses := n.buses } g (s :: l) = if g = none ∨ g = some k.dflt then some ⟨k.dflt, k.dflt, n.buses, s :: l⟩ else none := by
      intro g
      cases g <;> simp [addShapes, fresh]
    simp only [List.isEmpty_cons, Bool.false_eq_true, if_false, hall]
    constructor
    · constructor
      · intro hx
        split_ifs at hx with h1
        · simp only [Option.bind_some] at hx
          split_ifs at hx with h2
          · exact h2.2.symm
          · simp at hx
        · simp at hx
      · intro e
        rw [if_pos, Option.bind_some, if_pos ⟨e ▸ hd, e.symm⟩]
        · rfl
        · unfold carried
          split_ifs
          · exact .inr (by rw [hsc, e])
          · exact .inl rfl
    · intro m hm
      split_ifs at hm with h1
      · simp only [Option.bind_some] at hm
        split_ifs at hm with h2
        simp only [Option.some.injEq] at hm
        subst hm
        refine ⟨rfl, rfl, rfl, fun _ => ?_⟩
        cases n
        simp only at *
        rw [hsc, hs, h2.2]
      · simp at hm

/-! ## Examples -/

/-- Degrees, vertical axis first, and a grid with twice and three times the numbers, horizontal axis first. -/
def exK : Systems Bool ℚ where
  dflt := false
  move a b p := if a = b then p else if b then (2 * p.1, 3 * p.2) else (p.1 / 2, p.2 / 3)
  upFirst a := !a
  epsg a := some (if a then 3857 else 4326)
  fromEpsg c := if c = 3857 then some true else if c = 4326 then some false else none
  wkt a := if a then "grid" else "degrees"
  fromWkt s := if s = "grid" then some true else if s = "degrees" then some false else none
  carries := true

def exEarth : Earth exK (ℚ × ℚ) where
  at_ a p := if a then (p.1 / 2, p.2 / 3) else p
  stays a b p := by
    cases a <;> cases b <;> simp [exK]

theorem exFaithful : Faithful exK where
  same a p := by simp [exK]
  back a b p := by
    cases a <;> cases b <;> simp [exK] <;> (apply Prod.ext <;> simp <;> ring)
  text a := by cases a <;> decide +kernel
  code a c h := by
    cases a <;> simp [exK] at h <;> subst h <;> decide +kernel

/-- A bus and a shape. -/
def exNet : Net Bool ℚ := session exK [.addBuses [("A", 10, 50)], .addShapes (some false) [("s", [(10, 50)])]]

example : exNet = ⟨false, false, [("A", 10, 50)], [("s", [(10, 50)])]⟩ ∧ OneSystem exNet := ⟨by decide +kernel, one_system rfl _⟩

/-- The bus and the corner of the shape were at one place, and are not any more. -/
example : toCrs exK exNet true = ⟨true, true, [("A", 100, 30)], [("s", [(20, 150)])]⟩ := by decide +kernel

/-- **C153, not met.** Changing the system moves buses. -/
theorem not_buses_stay : ¬ BusesStay Bool ℚ (ℚ × ℚ) := by
  intro h
  have := h exK exEarth exNet true exFaithful
  have e : (toCrs exK exNet true).buses = [("A", 100, 30)] ∧ (toCrs exK exNet true).crs = true ∧ exNet.buses = [("A", 10, 50)] ∧ exNet.crs = false := by decide +kernel
  unfold SameBuses at this
  rw [e.1, e.2.1, e.2.2.1, e.2.2.2] at this
  cases this with
  | cons h _ =>
    have := congrArg Prod.fst h.2
    norm_num [exEarth] at this

/-- **C153, not met.** The system of a new network cannot be set. -/
theorem not_settable : ¬ Settable Bool ℚ := by
  intro h
  obtain ⟨m, hm, -⟩ := h exK true exFaithful
  revert hm
  simp [setCrs, fresh, exK]

/-- **C153, not met.** After a change of the system a network cannot be copied in part. -/
theorem not_copies : ¬ Copies Bool ℚ := by
  intro h
  have := h exK [.toCrs true] exFaithful
  revert this
  decide +kernel

/-- A file brings back the grid, while the table of shapes is in degrees, so that setting the system that it has is refused. -/
example : ((load exK (save exK ⟨true, true, [("A", 100, 30)], []⟩)).map (fun n => (n.crs, n.shapesCrs, setCrs n n.crs))) = some (true, false, none) := by decide +kernel

/-- Shapes without buses are lost. -/
example : (load exK (save exK ⟨false, false, [], [("s", [(10, 50)])]⟩)).map (·.shapes) = some [] := by decide +kernel

example : (slice exK exNet (fun _ => true)).isSome = true ∧ slice exK (toCrs exK exNet true) (fun _ => true) = none := by decide +kernel

example : copyPart exK exNet = some exNet := by decide +kernel

end Verif.Geo.Crs
