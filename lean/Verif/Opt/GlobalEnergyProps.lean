import Verif.Opt.GlobalProps
import Mathlib.Tactic.FieldSimp

/-!
# Global constraints on energy and transmission (C51, C52, C54)
-/

namespace Verif.Opt.Global

open Verif.Opt.Capacity (rowOf)

/-! ## Specification -/

section spec
variable {F : Type} [Field F] [LinearOrder F]

/-- The constraint looks at this snapshot. -/
def Counted (periodOf : Option (Nat → Int)) (period : Option Int) (t : Nat) : Prop :=
  ∀ p, period = some p → ∃ f, periodOf = some f ∧ f t = p

instance (periodOf : Option (Nat → Int)) (period : Option Int) (t : Nat) :
    Decidable (Counted periodOf period t) :=
  match period, periodOf with
  | none, _ => .isTrue (by intro p h; cases h)
  | some p, none => .isFalse (by intro h; obtain ⟨f, hf, -⟩ := h p rfl; cases hf)
  | some p, some f => if h : f t = p then .isTrue (by intro q hq; cases hq; exact ⟨f, rfl, h⟩)
    else .isFalse (by intro h'; obtain ⟨f', hf, hp⟩ := h' p rfl; cases hf; exact h hp)

/-- Energy content of a storage after the last counted snapshot in which it is in service. -/
def FinalLevel (periodOf : Option (Nat → Int)) (period : Option Int) (sns : List Nat) (s : EStor F)
    (level : Nat → F) (x : F) : Prop :=
  ∃ pre t post, sns = pre ++ t :: post ∧ Counted periodOf period t ∧ s.active t = true ∧
    (∀ u ∈ post, Counted periodOf period u → s.active u = false) ∧ x = level t

end spec

section energy
variable {F : Type} [Field F] [LinearOrder F]

theorem selected_ok {sns : List Nat} {periodOf : Option (Nat → Int)} {period : Option Int}
    (h : ∃ t ∈ sns, Counted periodOf period t) :
    selected sns periodOf period = .ok (some (sns.filter (fun t => decide (Counted periodOf period t)))) := by
  obtain ⟨t, ht, hc⟩ := h
  unfold selected
  cases period with
  | none =>
    simp only
    rw [List.filter_eq_self.mpr]
    intro u _
    simp only [decide_eq_true_eq]
    intro p hp; cases hp
  | some p =>
    cases periodOf with
    | none => obtain ⟨f, hf, -⟩ := hc p rfl; cases hf
    | some f =>
      have he : ∀ u, Counted (some f) (some p) u ↔ f u = p := by
        intro u
        constructor
        · intro h'; obtain ⟨f', hf, hp⟩ := h' p rfl; cases hf; exact hp
        · intro h' q hq; cases hq; exact ⟨f, rfl, h'⟩
      simp only
      rw [if_pos]
      · congr 2
        apply List.filter_congr
        intro u _
        simp [he u]
      · rw [List.any_eq_true]
        exact ⟨t, ht, by simpa using (he t).mp hc⟩

omit [Field F] [LinearOrder F] in
theorem lastVar_final {periodOf : Option (Nat → Int)} {period : Option Int} {sns : List Nat} {s : EStor F}
    {level : Nat → F} {x : F} (h : FinalLevel periodOf period sns s level x) :
    ∃ t, lastVar s.active (sns.filter (fun t => decide (Counted periodOf period t))) = some t ∧
      x = level t := by
  obtain ⟨pre, t, post, rfl, h1, h2, h3, h4⟩ := h
  refine ⟨t, ?_, h4⟩
  unfold lastVar
  rw [List.filter_append, List.filter_append, List.filter_cons, if_pos (by simpa using h1), List.filter_cons,
    if_pos h2]
  have : (post.filter (fun t => decide (Counted periodOf period t))).filter s.active = [] := by
    rw [List.filter_eq_nil_iff]
    intro u hu
    rw [List.mem_filter] at hu
    rw [h3 u hu.1 (by simpa using hu.2)]
    simp
  rw [this]
  simp

omit [LinearOrder F] in
/-- Value of the terms of generators. -/
theorem lin_gens (gens : List (EGen F)) (ok : EGen F → Bool) (a : EGen F → Nat → F) (sel : List Nat)
    (val : EVar → F) :
    lin val ((gens.filter ok).flatMap (fun g => (sel.filter g.active).map
      (fun t => (a g t, EVar.gen g.name t)))) =
    sumIf gens (fun g => ok g = true) (fun g =>
      sumIf sel (fun t => g.active t = true) (fun t => a g t * val (.gen g.name t))) := by
  rw [lin_flatMap, ← sum_filter_map]
  congr 1
  apply List.map_congr_left
  intro g _
  unfold lin
  rw [List.map_map]
  exact sum_filter_map _ _ _

omit [LinearOrder F] in
theorem sumIf_filter {α : Type} (l : List α) (p : α → Bool) (q : α → Prop) [DecidablePred q] (f : α → F) :
    sumIf (l.filter p) q f = sumIf l (fun a => p a = true ∧ q a) f := by
  unfold sumIf
  induction l with
  | nil => rfl
  | cons a t ih =>
    rw [List.map_cons, List.sum_cons, ← ih]
    cases h : p a <;> simp [h]

/-- Value of the terms of storage, with what they subtract from the right-hand side. -/
theorem lin_stor (ss : List (EStor F)) (ok : EStor F → Bool) (coef : Name → F) (mk : Name → Nat → EVar)
    (sns : List Nat) (periodOf : Option (Nat → Int)) (period : Option Int) (val : EVar → F)
    (fin : EStor F → F)
    (hfin : ∀ s ∈ ss, ok s = true → FinalLevel periodOf period sns s (fun t => val (mk s.name t)) (fin s)) :
    lin val (storTerms coef mk (ss.filter ok) (sns.filter (fun t => decide (Counted periodOf period t)))) +
      storRhs coef (ss.filter ok) =
    sumIf ss (fun s => ok s = true) (fun s => coef s.carrier * (s.initial - fin s)) := by
  rw [← sum_filter_map]
  have hfin' : ∀ s ∈ ss.filter ok,
      FinalLevel periodOf period sns s (fun t => val (mk s.name t)) (fin s) := by
    intro s hs
    rw [List.mem_filter] at hs
    exact hfin s hs.1 hs.2
  generalize ss.filter ok = l at hfin'
  unfold storTerms storRhs
  induction l with
  | nil => simp
  | cons s t ih =>
    have ih := ih (fun u hu => hfin' u (by simp [hu]))
    obtain ⟨k, hk, hx⟩ := lastVar_final (hfin' s (by simp))
    simp only [List.flatMap_cons, List.map_cons, List.sum_cons, hk]
    rw [lin_append, lin_cons, lin_nil, ← ih, hx]
    ring

omit [LinearOrder F] in
theorem storTerms_ne {coef : Name → F} {mk : Name → Nat → EVar} {ss : List (EStor F)} {sel : List Nat}
    {s : EStor F} (hs : s ∈ ss) {t : Nat} (h : lastVar s.active sel = some t) : storTerms coef mk ss sel ≠ [] := by
  unfold storTerms
  intro h0
  have := List.flatMap_eq_nil_iff.mp h0 s hs
  rw [h] at this
  cases this

theorem right_shift (s : Sense) (x a b c : F) [IsStrictOrderedRing F] :
    Right s x (c - a - b) ↔ Right s (x + a + b) c := by
  cases s <;> simp only [Right]
  · constructor <;> intro h <;> linarith
  · constructor <;> intro h <;> linarith
  · constructor <;> intro h <;> linear_combination h

/-- C51: with efficiencies other than zero, and something of a carrier with the attribute in service, the row
says exactly that weighted primary energy of all generators times the attribute of their
carrier, plus the depletion of the storage that is not cyclic times the attribute, is on the right
side of the constant.  Depletion is measured from the initial energy content up to the last counted snapshot.
Missing: storage never in service (`primary_counts_idle`); constraints without a
matching component are not enforced (`primary_not_enforced`). -/
theorem primary_energy_partial [IsStrictOrderedRing F] (gens : List (EGen F)) (units stores : List (EStor F))
    (coef : Name → F) (w : Nat → F)
    (sense : Sense) (constant : F) (sns : List Nat) (periodOf : Option (Nat → Int)) (period : Option Int)
    (val : EVar → F) (hper : ∃ t ∈ sns, Counted periodOf period t)
    (fuel : EGen F → Nat → F)
    (heff : ∀ g ∈ gens, ∀ t ∈ sns, g.eff t ≠ 0)
    (hfuel : ∀ g ∈ gens, ∀ t ∈ sns, fuel g t * g.eff t = val (.gen g.name t))
    (finU finS : EStor F → F)
    (hU : ∀ s ∈ units, s.cyclic = false → coef s.carrier ≠ 0 →
      FinalLevel periodOf period sns s (fun t => val (.soc s.name t)) (finU s))
    (hS : ∀ s ∈ stores, s.cyclic = false → coef s.carrier ≠ 0 →
      FinalLevel periodOf period sns s (fun t => val (.e s.name t)) (finS s))
    (hsome : (∃ g ∈ gens, coef g.carrier ≠ 0 ∧ ∃ t ∈ sns, Counted periodOf period t ∧ g.active t = true) ∨
      ∃ s ∈ units ++ stores, coef s.carrier ≠ 0 ∧ s.cyclic = false) :
    ∃ rows, primaryLimit gens units stores coef w sense constant sns periodOf period = .ok rows ∧
      (Feasible val rows ↔ Right sense
        ((gens.map (fun g => sumIf sns (fun t => Counted periodOf period t ∧ g.active t = true)
          (fun t => w t * coef g.carrier * fuel g t))).sum +
         sumIf units (fun s => s.cyclic = false) (fun s => coef s.carrier * (s.initial - finU s)) +
         sumIf stores (fun s => s.cyclic = false) (fun s => coef s.carrier * (s.initial - finS s))) constant) := by
  unfold primaryLimit
  rw [selected_ok hper]
  refine ⟨_, rfl, ?_⟩
  have hU' := lin_stor units (fun s => decide (coef s.carrier ≠ 0) && !s.cyclic) coef .soc sns periodOf period val finU
    (by intro s hs h; simp only [Bool.and_eq_true, decide_eq_true_eq, Bool.not_eq_true'] at h
        exact hU s hs h.2 h.1)
  have hS' := lin_stor stores (fun s => decide (coef s.carrier ≠ 0) && !s.cyclic) coef .e sns periodOf period val finS
    (by intro s hs h; simp only [Bool.and_eq_true, decide_eq_true_eq, Bool.not_eq_true'] at h
        exact hS s hs h.2 h.1)
  have hdrop : ∀ (ss : List (EStor F)) (fin : EStor F → F),
      sumIf ss (fun s => (decide (coef s.carrier ≠ 0) && !s.cyclic) = true)
        (fun s => coef s.carrier * (s.initial - fin s)) =
      sumIf ss (fun s => s.cyclic = false) (fun s => coef s.carrier * (s.initial - fin s)) := by
    intro ss fin
    unfold sumIf
    congr 1
    apply List.map_congr_left
    intro s _
    by_cases h0 : coef s.carrier = 0
    · simp [h0]
    · simp [h0]
  rw [hdrop] at hU' hS'
  unfold primaryRows
  simp only
  rw [rowOf_feasible, right_shift, lin_append, lin_append, lin_gens, ← hU', ← hS']
  · have hg : sumIf gens (fun g => decide (coef g.carrier ≠ 0) = true) (fun g =>
        sumIf (sns.filter (fun t => decide (Counted periodOf period t))) (fun t => g.active t = true)
          (fun t => coef g.carrier / g.eff t * w t * val (.gen g.name t))) =
        (gens.map (fun g => sumIf sns (fun t => Counted periodOf period t ∧ g.active t = true)
          (fun t => w t * coef g.carrier * fuel g t))).sum := by
      unfold sumIf
      congr 1
      apply List.map_congr_left
      intro g hg
      have h1 := sumIf_filter sns (fun t => decide (Counted periodOf period t)) (fun t => g.active t = true)
        (fun t => coef g.carrier / g.eff t * w t * val (.gen g.name t))
      have h2 : sumIf sns (fun t => decide (Counted periodOf period t) = true ∧ g.active t = true)
          (fun t => coef g.carrier / g.eff t * w t * val (.gen g.name t)) =
          sumIf sns (fun t => Counted periodOf period t ∧ g.active t = true)
          (fun t => w t * coef g.carrier * fuel g t) := by
        unfold sumIf
        congr 1
        apply List.map_congr_left
        intro t ht
        simp only [decide_eq_true_eq]
        split
        · rw [← hfuel g hg t ht]
          have := heff g hg t ht
          field_simp
        · rfl
      unfold sumIf at h1 h2
      beta_reduce at h1 h2 ⊢
      rw [h1, h2]
      split
      · rfl
      · rename_i h0
        simp only [decide_eq_true_eq, not_not] at h0
        symm
        apply List.sum_eq_zero
        intro x hx
        obtain ⟨t, -, rfl⟩ := List.mem_map.mp hx
        simp [h0]
    rw [hg]
    have sh : ∀ A B C D E : F, A + B + C + D + E = A + (B + D) + (C + E) := by intros; ring
    rw [sh]
  · rcases hsome with ⟨g, hg, h1, t, ht, h2, h3⟩ | ⟨s, hs, h1, h2⟩
    · intro h0
      rw [List.append_eq_nil_iff, List.append_eq_nil_iff] at h0
      have := List.flatMap_eq_nil_iff.mp h0.1.1 g (by rw [List.mem_filter]; exact ⟨hg, by simpa using h1⟩)
      rw [List.map_eq_nil_iff, List.filter_eq_nil_iff] at this
      exact this t (by rw [List.mem_filter]; exact ⟨ht, by simpa using h2⟩) h3
    · intro h0
      rw [List.append_eq_nil_iff, List.append_eq_nil_iff] at h0
      rcases List.mem_append.mp hs with hs | hs
      · obtain ⟨t, ht, -⟩ := lastVar_final (hU s hs h2 h1)
        exact storTerms_ne (by rw [List.mem_filter]; exact ⟨hs, by simp [h1, h2]⟩) ht h0.1.2
      · obtain ⟨t, ht, -⟩ := lastVar_final (hS s hs h2 h1)
        exact storTerms_ne (by rw [List.mem_filter]; exact ⟨hs, by simp [h1, h2]⟩) ht h0.2

/-- A period which is not in the horizon switches the constraint off. -/
theorem primary_other_period (gens : List (EGen F)) (units stores : List (EStor F)) (coef : Name → F)
    (w : Nat → F) (sense : Sense) (constant : F) (sns : List Nat) (f : Nat → Int) (p : Int)
    (h : ∀ t ∈ sns, f t ≠ p) :
    primaryLimit gens units stores coef w sense constant sns (some f) (some p) = .ok [] := by
  unfold primaryLimit selected
  simp only
  rw [if_neg]
  rw [List.any_eq_true]
  rintro ⟨t, ht, h1⟩
  exact h t ht (by simpa using h1)

/-- C52: the row says exactly that weighted production of the generators of the carrier plus depletion of
the storage of the carrier that is not cyclic is on the right side of the constant.
Missing: storage never in service, and limits without matching components, which are not enforced. -/
theorem operational_limit_partial [IsStrictOrderedRing F] (gens : List (EGen F)) (units stores : List (EStor F))
    (carrier : Name) (w : Nat → F)
    (sense : Sense) (constant : F) (sns : List Nat) (periodOf : Option (Nat → Int)) (period : Option Int)
    (val : EVar → F) (hper : ∃ t ∈ sns, Counted periodOf period t)
    (finU finS : EStor F → F)
    (hU : ∀ s ∈ units, s.cyclic = false → s.carrier = carrier →
      FinalLevel periodOf period sns s (fun t => val (.soc s.name t)) (finU s))
    (hS : ∀ s ∈ stores, s.cyclic = false → s.carrier = carrier →
      FinalLevel periodOf period sns s (fun t => val (.e s.name t)) (finS s))
    (hsome : (∃ g ∈ gens, g.carrier = carrier ∧ ∃ t ∈ sns, Counted periodOf period t ∧ g.active t = true) ∨
      ∃ s ∈ units ++ stores, s.carrier = carrier ∧ s.cyclic = false) :
    ∃ rows, operationalLimit gens units stores carrier w sense constant sns periodOf period = .ok rows ∧
      (Feasible val rows ↔ Right sense
        (sumIf gens (fun g => g.carrier = carrier)
          (fun g => sumIf sns (fun t => Counted periodOf period t ∧ g.active t = true)
            (fun t => w t * val (.gen g.name t))) +
         sumIf units (fun s => s.carrier = carrier ∧ s.cyclic = false) (fun s => s.initial - finU s) +
         sumIf stores (fun s => s.carrier = carrier ∧ s.cyclic = false) (fun s => s.initial - finS s)) constant) := by
  unfold operationalLimit
  rw [selected_ok hper]
  refine ⟨_, rfl, ?_⟩
  have hU' := lin_stor units (fun s => decide (s.carrier = carrier) && !s.cyclic) (fun _ => 1) .soc sns periodOf
    period val finU
    (by intro s hs h; simp only [Bool.and_eq_true, decide_eq_true_eq, Bool.not_eq_true'] at h
        exact hU s hs h.2 h.1)
  have hS' := lin_stor stores (fun s => decide (s.carrier = carrier) && !s.cyclic) (fun _ => 1) .e sns periodOf
    period val finS
    (by intro s hs h; simp only [Bool.and_eq_true, decide_eq_true_eq, Bool.not_eq_true'] at h
        exact hS s hs h.2 h.1)
  have hdrop : ∀ (ss : List (EStor F)) (fin : EStor F → F),
      sumIf ss (fun s => (decide (s.carrier = carrier) && !s.cyclic) = true)
        (fun s => 1 * (s.initial - fin s)) =
      sumIf ss (fun s => s.carrier = carrier ∧ s.cyclic = false) (fun s => s.initial - fin s) := by
    intro ss fin
    apply sumIf_congr
    · intro s _; simp
    · intro s _ _; ring
  rw [hdrop] at hU' hS'
  unfold operationalRows
  simp only
  rw [rowOf_feasible, right_shift, lin_append, lin_append, lin_gens, ← hU', ← hS']
  · have hg : sumIf gens (fun g => decide (g.carrier = carrier) = true) (fun g =>
        sumIf (sns.filter (fun t => decide (Counted periodOf period t))) (fun t => g.active t = true)
          (fun t => w t * val (.gen g.name t))) =
        sumIf gens (fun g => g.carrier = carrier)
          (fun g => sumIf sns (fun t => Counted periodOf period t ∧ g.active t = true)
            (fun t => w t * val (.gen g.name t))) := by
      apply sumIf_congr
      · intro g _; simp
      · intro g _ _
        rw [sumIf_filter]
        apply sumIf_congr
        · intro t _; simp
        · intros; rfl
    rw [hg]
    have sh : ∀ A B C D E : F, A + B + C + D + E = A + (B + D) + (C + E) := by intros; ring
    rw [sh]
  · rcases hsome with ⟨g, hg, h1, t, ht, h2, h3⟩ | ⟨s, hs, h1, h2⟩
    · intro h0
      rw [List.append_eq_nil_iff, List.append_eq_nil_iff] at h0
      have := List.flatMap_eq_nil_iff.mp h0.1.1 g (by rw [List.mem_filter]; exact ⟨hg, by simpa using h1⟩)
      rw [List.map_eq_nil_iff, List.filter_eq_nil_iff] at this
      exact this t (by rw [List.mem_filter]; exact ⟨ht, by simpa using h2⟩) h3
    · intro h0
      rw [List.append_eq_nil_iff, List.append_eq_nil_iff] at h0
      rcases List.mem_append.mp hs with hs | hs
      · obtain ⟨t, ht, -⟩ := lastVar_final (hU s hs h2 h1)
        exact storTerms_ne (by rw [List.mem_filter]; exact ⟨hs, by simp [h1, h2]⟩) ht h0.1.2
      · obtain ⟨t, ht, -⟩ := lastVar_final (hS s hs h2 h1)
        exact storTerms_ne (by rw [List.mem_filter]; exact ⟨hs, by simp [h1, h2]⟩) ht h0.2

end energy

/-! ## Transmission -/

section parse

def isBracket (c : Char) : Prop := c = '[' ∨ c = ']' ∨ c = '(' ∨ c = ')'

/-- An entry of a list of carriers: a name with brackets and white space around it. -/
structure Entry where
  left : List Char
  openB : List Char
  name : List Char
  closeB : List Char
  right : List Char

def Entry.text (e : Entry) : List Char := e.left ++ e.openB ++ e.name ++ e.closeB ++ e.right

/-- White space, brackets, and a name which has no commas and brackets and is not surrounded by white space. -/
structure Entry.Good (e : Entry) : Prop where
  left : ∀ c ∈ e.left, c.isWhitespace = true
  right : ∀ c ∈ e.right, c.isWhitespace = true
  openB : ∀ c ∈ e.openB, isBracket c
  closeB : ∀ c ∈ e.closeB, isBracket c
  bare : ∀ c ∈ e.name, ¬ isBracket c ∧ c ≠ ','
  first : ∀ c, e.name.head? = some c → c.isWhitespace = false
  last : ∀ c, e.name.getLast? = some c → c.isWhitespace = false
  nonempty : e.name ≠ []

theorem bracket_not_space {c : Char} (h : isBracket c) : c.isWhitespace = false := by
  rcases h with rfl | rfl | rfl | rfl <;> decide

theorem dropWhile_ws (w s : List Char) (hw : ∀ c ∈ w, c.isWhitespace = true)
    (hs : ∀ c, s.head? = some c → c.isWhitespace = false) :
    (w ++ s).dropWhile (fun c => c.isWhitespace) = s := by
  induction w with
  | nil =>
    cases s with
    | nil => rfl
    | cons a t =>
      rw [List.nil_append, List.dropWhile_cons, if_neg]
      rw [hs a rfl]; simp
  | cons a t ih =>
    rw [List.cons_append, List.dropWhile_cons, if_pos (hw a (by simp))]
    exact ih (fun c hc => hw c (by simp [hc]))

theorem strip_ws (l s r : List Char) (hl : ∀ c ∈ l, c.isWhitespace = true)
    (hr : ∀ c ∈ r, c.isWhitespace = true) (h1 : ∀ c, s.head? = some c → c.isWhitespace = false)
    (h2 : ∀ c, s.getLast? = some c → c.isWhitespace = false) (hne : s ≠ []) : strip (l ++ s ++ r) = s := by
  unfold strip
  rw [List.append_assoc, dropWhile_ws l (s ++ r) hl, List.reverse_append, dropWhile_ws r.reverse s.reverse,
    List.reverse_reverse]
  · simpa using hr
  · rw [List.head?_reverse]; exact h2
  · intro c hc
    rw [List.head?_append_of_ne_nil _ hne] at hc
    exact h1 c hc

theorem substr_entry (o n c : List Char) (ho : ∀ x ∈ o, isBracket x) (hc : ∀ x ∈ c, isBracket x)
    (hn : ∀ x ∈ n, ¬ isBracket x) : substr (o ++ n ++ c) = n := by
  have key : ∀ x, (!(x == '[' || x == ']' || x == '(' || x == ')')) = true ↔ ¬ isBracket x := by
    intro x; simp [isBracket, and_assoc]
  unfold substr
  rw [List.filter_append, List.filter_append, (List.filter_eq_nil_iff (l := o)).mpr,
    (List.filter_eq_nil_iff (l := c)).mpr, List.filter_eq_self.mpr]
  · simp
  · intro x hx; exact (key x).mpr (hn x hx)
  · intro x hx; rw [key]; exact fun h => h (hc x hx)
  · intro x hx; rw [key]; exact fun h => h (ho x hx)

/-- C54: the list of carriers in the text of the constraint is read entry by entry. -/
theorem carriers_read (es : List Entry) (hne : es ≠ []) (hg : ∀ e ∈ es, e.Good) :
    carriersOf ([','].intercalate (es.map Entry.text)) = es.map (·.name) := by
  unfold carriersOf
  rw [List.splitOn_intercalate]
  · rw [List.map_map]
    apply List.map_congr_left
    intro e he
    have g := hg e he
    simp only [Function.comp, Entry.text]
    rw [show e.left ++ e.openB ++ e.name ++ e.closeB ++ e.right =
      e.left ++ (e.openB ++ e.name ++ e.closeB) ++ e.right by simp]
    rw [strip_ws _ _ _ g.left g.right, substr_entry _ _ _ g.openB g.closeB (fun x hx => (g.bare x hx).1)]
    · intro c hc
      cases ho : e.openB with
      | cons a t =>
        rw [ho] at hc
        simp only [List.cons_append, List.head?_cons, Option.some.injEq] at hc
        subst hc
        exact bracket_not_space (g.openB _ (by simp [ho]))
      | nil =>
        rw [ho, List.nil_append, List.head?_append_of_ne_nil _ g.nonempty] at hc
        exact g.first c hc
    · intro c hc
      by_cases ho : e.closeB = []
      · rw [ho, List.append_nil, List.getLast?_append_of_ne_nil _ g.nonempty] at hc
        exact g.last c hc
      · rw [List.getLast?_append_of_ne_nil _ ho] at hc
        exact bracket_not_space (g.closeB c (List.mem_of_getLast? hc))
    · have := g.nonempty
      intro h0
      rw [List.append_eq_nil_iff, List.append_eq_nil_iff] at h0
      exact this h0.1.2
  · intro l hl
    obtain ⟨e, he, rfl⟩ := List.mem_map.mp hl
    have g := hg e he
    simp only [Entry.text, List.mem_append, not_or]
    refine ⟨⟨⟨⟨?_, ?_⟩, ?_⟩, ?_⟩, ?_⟩
    · intro h; have := g.left _ h; revert this; decide
    · intro h; rcases g.openB _ h with h | h | h | h <;> cases h
    · intro h; exact (g.bare _ h).2 rfl
    · intro h; rcases g.closeB _ h with h | h | h | h <;> cases h
    · intro h; have := g.right _ h; revert this; decide
  · simpa using hne

end parse

section transmission
variable {F : Type} [Field F] [LinearOrder F]

/-- The branch is in the limit: extendable, of one of the carriers, and in operation in the period of the
constraint or, without one, in some period of the horizon. -/
def InLimit (names : List (List Char)) (periods : Option (List Int)) (period : Option Int) (a : Asset F) : Prop :=
  a.ext = true ∧ a.carrier.toList ∈ names ∧
    ((∃ p, period = some p ∧ a.activeIn p = true) ∨
     (period = none ∧ ∀ ps, periods = some ps → ∃ p ∈ ps, a.activeIn p = true))

omit [Field F] [LinearOrder F] in
theorem mem_trans {c : Cls F} {names : List (List Char)} {periods : Option (List Int)} {period : Option Int}
    {a : Asset F} :
    a ∈ transAssets c names periods period ↔ a ∈ c.assets ∧ InLimit names periods period a := by
  unfold transAssets InLimit
  rw [List.mem_filter]
  cases period with
  | some p => simp [and_assoc]
  | none => cases periods with
    | none => simp
    | some ps => simp [and_assoc]

open Classical in
theorem lin_trans (cs : List (Cls F)) (names : List (List Char)) (periods : Option (List Int))
    (period : Option Int) (x : Cls F → Asset F → F) (val : Var → F) :
    lin val (cs.flatMap (fun c => (transAssets c names periods period).map
      (fun a => (x c a, (c.cname, a.name))))) =
    (cs.map (fun c => sumIf c.assets (InLimit names periods period)
      (fun a => x c a * val (c.cname, a.name)))).sum := by
  rw [lin_flatMap]
  congr 1
  apply List.map_congr_left
  intro c _
  unfold lin
  rw [List.map_map]
  have : transAssets c names periods period = c.assets.filter (fun a => decide (InLimit names periods period a)) := by
    unfold transAssets
    apply List.filter_congr
    intro a ha
    rw [Bool.eq_iff_iff]
    have := mem_trans (c := c) (names := names) (periods := periods) (period := period) (a := a)
    unfold transAssets at this
    rw [List.mem_filter] at this
    simp only [decide_eq_true_eq]
    constructor
    · intro h; exact (this.mp ⟨ha, h⟩).2
    · intro h; exact (this.mpr ⟨ha, h⟩).2
  rw [this, sum_filter_map]
  apply sumIf_congr
  · intro a _; simp
  · intros; rfl

open Classical in
/-- C54 (volume): the row bounds the sum of length times capacity over the branches in the limit.
Missing: if no branch is in the limit there is no row, even for a lower bound (`volume_not_enforced`). -/
theorem volume_limit_partial (cs : List (Cls F)) (es : List Entry) (hne : es ≠ []) (hg : ∀ e ∈ es, e.Good)
    (periods : Option (List Int)) (period : Option Int) (sense : Sense) (constant : F) (val : Var → F)
    (hsome : ∃ c ∈ cs, ∃ a ∈ c.assets, InLimit (es.map (·.name)) periods period a) :
    Feasible val (volumeCons cs ([','].intercalate (es.map Entry.text)) periods period sense constant) ↔
      Right sense (cs.map (fun c => sumIf c.assets (InLimit (es.map (·.name)) periods period)
        (fun a => a.length * val (c.cname, a.name)))).sum constant := by
  unfold volumeCons
  rw [carriers_read es hne hg, rowOf_feasible, lin_trans]
  obtain ⟨c, hc, a, ha, h⟩ := hsome
  intro h0
  have := List.flatMap_eq_nil_iff.mp h0 c hc
  rw [List.map_eq_nil_iff] at this
  have hm := mem_trans.mpr ⟨ha, h⟩
  rw [this] at hm
  cases hm

/-- Weight of the cost of a branch: with one period, or for a constraint on one, 1; otherwise the sum of the
weightings of the periods of the horizon in which it is in operation. -/
def Weighs (periods : Option (List Int)) (pw : Int → F) (period : Option Int) (a : Asset F) (x : F) : Prop :=
  match period, periods with
  | none, some ps => x = sumIf ps (fun p => a.activeIn p = true) pw
  | _, _ => x = 1

open Classical in
/-- C54 (cost): the row bounds the sum of weighted capital cost times capacity over the branches in the limit. -/
theorem cost_limit_partial (cs : List (Cls F)) (es : List Entry) (hne : es ≠ []) (hg : ∀ e ∈ es, e.Good)
    (periods : Option (List Int)) (pw : Int → F) (period : Option Int) (sense : Sense) (constant : F)
    (val : Var → F) (weight : Asset F → F)
    (hw : ∀ c ∈ cs, ∀ a ∈ c.assets, Weighs periods pw period a (weight a))
    (hsome : ∃ c ∈ cs, ∃ a ∈ c.assets, InLimit (es.map (·.name)) periods period a) :
    Feasible val (costCons cs ([','].intercalate (es.map Entry.text)) periods pw period sense constant) ↔
      Right sense (cs.map (fun c => sumIf c.assets (InLimit (es.map (·.name)) periods period)
        (fun a => a.capitalCost * weight a * val (c.cname, a.name)))).sum constant := by
  unfold costCons
  rw [carriers_read es hne hg, rowOf_feasible, lin_trans]
  · have : (cs.map (fun c => sumIf c.assets (InLimit (es.map (·.name)) periods period)
        (fun a => a.capitalCost * costWeight periods pw period a * val (c.cname, a.name)))) =
        cs.map (fun c => sumIf c.assets (InLimit (es.map (·.name)) periods period)
        (fun a => a.capitalCost * weight a * val (c.cname, a.name))) := by
      apply List.map_congr_left
      intro c hc
      unfold sumIf
      congr 1
      apply List.map_congr_left
      intro a ha
      have := hw c hc a ha
      have he : costWeight periods pw period a = weight a := by
        unfold costWeight
        unfold Weighs at this
        cases period with
        | some p => simp only at this ⊢; exact this.symm
        | none => cases periods with
          | none => simp only at this ⊢; exact this.symm
          | some ps => simp only at this ⊢; rw [this]; rfl
      beta_reduce
      rw [he]
    rw [this]
  · obtain ⟨c, hc, a, ha, h⟩ := hsome
    intro h0
    have := List.flatMap_eq_nil_iff.mp h0 c hc
    rw [List.map_eq_nil_iff] at this
    have hm := mem_trans.mpr ⟨ha, h⟩
    rw [this] at hm
    cases hm

end transmission

/-! ## Examples and findings -/

def exGens : List (EGen ℚ) := [⟨"gas", "gas", fun _ => 1 / 2, fun _ => true⟩, ⟨"wind", "wind", fun _ => 1, fun _ => true⟩]
def exStores : List (EStor ℚ) := [⟨"tank", "gas", false, 10, fun t => t < 2⟩]
def exCoef : Name → ℚ := fun c => if c = "gas" then 2 else 0

/-- Gas 1 per snapshot at efficiency 1/2 for three snapshots, tank from 10 to 4: 3·2·2 + 6·2 = 24. -/
def exVal : EVar → ℚ
  | .gen _ _ => 1
  | .e _ t => if t = 1 then 4 else 8
  | .soc _ _ => 0

example : (∃ rows, primaryLimit exGens [] exStores exCoef (fun _ => 1) .le 24 [0, 1, 2] none none = .ok rows ∧
      Feasible exVal rows) ∧
    (∃ rows, primaryLimit exGens [] exStores exCoef (fun _ => 1) .le 23 [0, 1, 2] none none = .ok rows ∧
      ¬ Feasible exVal rows) ∧
    (∃ g ∈ exGens, exCoef g.carrier ≠ 0) ∧ (∀ g ∈ exGens, ∀ t ∈ [0, 1, 2], g.eff t ≠ 0) ∧
    (∃ rows, operationalLimit exGens [] exStores "gas" (fun _ => 1) .le 9 [0, 1, 2] none none = .ok rows ∧
      Feasible exVal rows) ∧
    (∃ rows, operationalLimit exGens [] exStores "gas" (fun _ => 1) .le 8 [0, 1, 2] none none = .ok rows ∧
      ¬ Feasible exVal rows) :=
  ⟨⟨_, rfl, by decide +kernel⟩, ⟨_, rfl, by decide +kernel⟩, by decide +kernel, by decide +kernel,
    ⟨_, rfl, by decide +kernel⟩, ⟨_, rfl, by decide +kernel⟩⟩

example : FinalLevel none none [0, 1, 2] (exStores.head (by decide)) (fun t => exVal (.e "tank" t)) 4 := by
  refine ⟨[0], 1, [2], rfl, (by intro p h; cases h), by decide, ?_, by decide +kernel⟩
  intro u hu _
  simp only [List.mem_singleton] at hu
  subst hu
  decide

/-- **Finding** (global_constraints.py 288-300): the initial energy of a store that is never in service counts as
energy used. -/
theorem primary_counts_idle : ∃ (gens : List (EGen ℚ)) (stores : List (EStor ℚ)) (val : EVar → ℚ) (rows : List (Con EVar ℚ)),
    (∀ s ∈ stores, ∀ t, s.active t = false) ∧ (∀ v, val v = 0) ∧
    primaryLimit gens [] stores exCoef (fun _ => 1) .le 5 [0, 1] none none = .ok rows ∧ ¬ Feasible val rows :=
  ⟨exGens, [⟨"tank", "gas", false, 10, fun _ => false⟩], fun _ => 0, _, by simp, fun _ => rfl, rfl,
    by decide +kernel⟩

/-- **Finding** (global_constraints.py 302-303): without a matching component the constraint is
not enforced: a required minimum of 5 is accepted although nothing is produced. -/
theorem primary_not_enforced : ∃ (gens : List (EGen ℚ)) (val : EVar → ℚ),
    primaryLimit gens [] [] exCoef (fun _ => 1) .ge 5 [0, 1] none none = .ok [] ∧
    gens.all (fun g => exCoef g.carrier = 0) = true ∧ ∀ v, val v = 0 :=
  ⟨[⟨"wind", "wind", fun _ => 1, fun _ => true⟩], fun _ => 0, by decide +kernel, by decide +kernel, fun _ => rfl⟩

/-- **Finding** (global_constraints.py 264-266, 281-300): a limit for the second period counts what a store
lost in the first. -/
theorem primary_counts_earlier : ∃ (stores : List (EStor ℚ)) (val : EVar → ℚ) (rows : List (Con EVar ℚ)),
    primaryLimit [] [] stores exCoef (fun _ => 1) .le 5 [0, 1] (some fun t => if t = 0 then 2020 else 2030) (some 2030) =
      .ok rows ∧
    (∀ s ∈ stores, val (.e s.name 1) = val (.e s.name 0)) ∧ ¬ Feasible val rows :=
  ⟨[⟨"tank", "gas", false, 10, fun _ => true⟩], fun _ => 0, _, rfl, fun _ _ => rfl, by decide +kernel⟩

/-- **Finding** (global_constraints.py 345-349): a period outside the horizon, which switches off a primary energy
limit, makes the operational limit raise. -/
theorem operational_period_raises : ∃ (gens : List (EGen ℚ)),
    primaryLimit gens [] [] exCoef (fun _ => 1) .le 5 [0] (some fun _ => 2020) (some 2030) = .ok [] ∧
    operationalLimit gens [] [] "gas" (fun _ => 1) .le 5 [0] (some fun _ => 2020) (some 2030) = .error .keyError :=
  ⟨exGens, by decide +kernel, by decide +kernel⟩

def exBranches : List (Cls ℚ) :=
  [⟨"Line", true, true, [⟨"l", "AC", "a", true, fun _ => true, 10, 3⟩, ⟨"m", "AC", "a", false, fun _ => true, 10, 3⟩]⟩,
   ⟨"Link", true, true, [⟨"k", "DC", "a", true, fun p => p = 2030, 20, 5⟩]⟩]

def exEntries : List Entry := [⟨[], ['['], ['A', 'C'], [], []⟩, ⟨[' '], [], ['D', 'C'], [']'], [' ']⟩]

example : [','].intercalate (exEntries.map Entry.text) = "[AC, DC] ".toList ∧
    (∀ e ∈ exEntries, e.Good) := by
  refine ⟨by decide +kernel, ?_⟩
  intro e he
  simp only [exEntries, List.mem_cons, List.not_mem_nil, or_false] at he
  rcases he with rfl | rfl <;>
    exact ⟨by simp, by simp, by simp [isBracket], by simp [isBracket], by simp [isBracket], by simp; try decide,
      by simp; try decide, by simp⟩

/-- 10·3 + 20·4 = 110; cost with weightings 1 and 2: 3·3·3 + 5·2·4 = 67. -/
example :
    let val : Var → ℚ := fun v => if v.1 = "Line" then 3 else 4
    let text := ['[', 'A', 'C', ',', ' ', 'D', 'C', ']']
    Feasible val (volumeCons exBranches text (some [2020, 2030]) none .le 110) ∧
    ¬ Feasible val (volumeCons exBranches text (some [2020, 2030]) none .le 109) ∧
    Feasible val (volumeCons exBranches text (some [2020, 2030]) (some 2020) .le 30) ∧
    Feasible val (costCons exBranches text (some [2020, 2030]) (fun p => if p = 2020 then 1 else 2) none .le 67) ∧
    ¬ Feasible val (costCons exBranches text (some [2020, 2030]) (fun p => if p = 2020 then 1 else 2) none .le 66) := by
  decide +kernel

/-- **Finding** (global_constraints.py 404-413): the brackets of a carrier's own name are removed too, so that a
limit on such a carrier has no effect. -/
theorem volume_not_enforced : ∃ (cs : List (Cls ℚ)) (val : Var → ℚ),
    (∃ c ∈ cs, ∃ a ∈ c.assets, a.ext = true ∧ a.carrier = "AC (old)" ∧ 1 < a.length * val (c.cname, a.name)) ∧
    volumeCons cs "AC (old)".toList none none .le 1 = [] :=
  ⟨[⟨"Line", true, true, [⟨"l", "AC (old)", "a", true, fun _ => true, 10, 3⟩]⟩], fun _ => 3,
    by decide +kernel, by decide +kernel⟩

end Verif.Opt.Global
