import Verif.Opt.Iterative
import Mathlib.Tactic.Linarith
import Mathlib.Tactic.FieldSimp
import Mathlib.Tactic.Ring
import Mathlib.Algebra.Order.Ring.Rat
import Mathlib.Data.List.Forall2

/-!
# Iterative transmission expansion (C61)
-/

namespace Verif.Opt.Iterative

variable {F : Type} [Field F] [LinearOrder F] [FloorRing F]

/-- What is kept between the state `l` at the beginning and `l'` later on, as long as all optimised capacities are positive.
The reactance of AC lines and the resistance of DC lines times the capacity stay the same. -/
structure Kept (l l' : ILine F) : Prop where
  name : l'.name = l.name
  ext : l'.ext = l.ext
  typed : l'.typed = l.typed
  carrier : l'.carrier = l.carrier
  sNom : l'.sNom = l.sNom
  limits : l'.sNomMin = l.sNomMin ∧ l'.sNomMax = l.sNomMax ∧ l'.cost = l.cost ∧ l'.base = l.base
  react : ∀ x, l.x = .fin x → ∃ x', l'.x = .fin x' ∧
    (if l.ext = true ∧ l.typed = false ∧ l.carrier = "AC" then x' * l'.sNomOpt = x * l.sNomOpt else x' = x)
  resist : ∀ r, l.r = .fin r → ∃ r', l'.r = .fin r' ∧
    (if l.ext = true ∧ l.typed = false ∧ l.carrier = "DC" then r' * l'.sNomOpt = r * l.sNomOpt else r' = r)
  par : l.ext = true → l.typed = true → l.numPar * l.base = l.sNomOpt → l'.numPar * l.base = l'.sNomOpt
  pos : l.ext = true → 0 < l'.sNomOpt

theorem Kept.refl (l : ILine F) (h : l.ext = true → 0 < l.sNomOpt) : Kept l l :=
  ⟨rfl, rfl, rfl, rfl, rfl, ⟨rfl, rfl, rfl, rfl⟩, fun x hx => ⟨x, hx, by split <;> rfl⟩,
    fun x hx => ⟨x, hx, by split <;> rfl⟩, fun _ _ h => h, h⟩

theorem Kept.trans {a b c : ILine F} (h1 : Kept a b) (h2 : Kept b c) : Kept a c where
  name := h2.name.trans h1.name
  ext := h2.ext.trans h1.ext
  typed := h2.typed.trans h1.typed
  carrier := h2.carrier.trans h1.carrier
  sNom := h2.sNom.trans h1.sNom
  limits := ⟨h2.limits.1.trans h1.limits.1, h2.limits.2.1.trans h1.limits.2.1, h2.limits.2.2.1.trans h1.limits.2.2.1,
    h2.limits.2.2.2.trans h1.limits.2.2.2⟩
  react := by
    intro x hx
    obtain ⟨x', hx', e1⟩ := h1.react x hx
    obtain ⟨x'', hx'', e2⟩ := h2.react x' hx'
    refine ⟨x'', hx'', ?_⟩
    rw [h1.ext, h1.typed, h1.carrier] at e2
    split at e1 <;> simp_all
  resist := by
    intro x hx
    obtain ⟨x', hx', e1⟩ := h1.resist x hx
    obtain ⟨x'', hx'', e2⟩ := h2.resist x' hx'
    refine ⟨x'', hx'', ?_⟩
    rw [h1.ext, h1.typed, h1.carrier] at e2
    split at e1 <;> simp_all
  par := by
    intro he ht h
    have := h2.par (h1.ext.trans he) (h1.typed.trans ht)
    rw [h1.limits.2.2.2] at this
    exact this (h1.par he ht h)
  pos := fun he => h2.pos (h1.ext.trans he)

variable [IsStrictOrderedRing F]

theorem iterStep_kept (it : Nat) (hit : it ≠ 0) (sol : String → F) (l : ILine F)
    (hl : l.ext = true → 0 < l.sNomOpt) (hs : l.ext = true → 0 < sol l.name) (hb : l.base ≠ 0) :
    Kept l (iterStep it sol l) := by
  unfold iterStep previous
  rw [if_pos hit]
  cases he : l.ext with
  | false =>
    have e : updateParams l.sNomOpt (solved sol l) = solved sol l := by unfold updateParams solved; simp [he]
    rw [e]
    refine ⟨rfl, rfl, rfl, rfl, rfl, ⟨rfl, rfl, rfl, rfl⟩, fun x hx => ⟨x, hx, by simp [he]⟩,
      fun x hx => ⟨x, hx, by simp [he]⟩, (fun h => by simp [he] at h), (fun h => by simp [he] at h)⟩
  | true =>
    have h0 := hl he
    have h1 := hs he
    have eopt : (solved sol l).sNomOpt = sol l.name := by simp [solved, he]
    cases ht : l.typed with
    | true =>
      have e : updateParams l.sNomOpt (solved sol l) = { solved sol l with numPar := sol l.name / l.base } := by
        unfold updateParams solved; simp [he, ht]
      rw [e]
      refine ⟨rfl, rfl, rfl, rfl, rfl, ⟨rfl, rfl, rfl, rfl⟩, fun x hx => ⟨x, hx, by simp [ht]⟩,
        fun x hx => ⟨x, hx, by simp [ht]⟩, fun _ _ _ => ?_, fun _ => ?_⟩
      · show sol l.name / l.base * l.base = (solved sol l).sNomOpt
        rw [eopt]; field_simp
      · show 0 < (solved sol l).sNomOpt
        rw [eopt]; exact h1
    | false =>
      have hr : ratio (sol l.name) l.sNomOpt = .fin (sol l.name / l.sNomOpt) := by
        unfold ratio; rw [if_neg h0.ne']
      have hdiv : ∀ x : F, (Num.fin x).div (.fin (sol l.name / l.sNomOpt)) = .fin (x / (sol l.name / l.sNomOpt)) := by
        intro x; unfold Num.div; simp only; rw [if_neg (div_pos h1 h0).ne']
      have hinv : ∀ x : F, x / (sol l.name / l.sNomOpt) * sol l.name = x * l.sNomOpt := by
        intro x; have := h0.ne'; have := h1.ne'; field_simp
      have e : updateParams l.sNomOpt (solved sol l) = { solved sol l with
          x := if l.carrier = "AC" then l.x.div (ratio (sol l.name) l.sNomOpt) else l.x
          r := if l.carrier = "DC" then l.r.div (ratio (sol l.name) l.sNomOpt) else l.r } := by
        unfold updateParams solved; simp [he, ht]
      rw [e]
      refine ⟨rfl, rfl, rfl, rfl, rfl, ⟨rfl, rfl, rfl, rfl⟩, ?_, ?_, (fun _ h => by simp [ht] at h), fun _ => ?_⟩
      · intro x hx
        by_cases hc : l.carrier = "AC"
        · refine ⟨x / (sol l.name / l.sNomOpt), ?_, ?_⟩
          · show (if l.carrier = "AC" then _ else _) = _
            rw [if_pos hc, hx, hr, hdiv]
          · rw [if_pos ⟨he, ht, hc⟩]
            show _ * (solved sol l).sNomOpt = _
            rw [eopt, hinv]
        · refine ⟨x, ?_, ?_⟩
          · show (if l.carrier = "AC" then _ else _) = _
            rw [if_neg hc, hx]
          · rw [if_neg (fun h => hc h.2.2)]
      · intro x hx
        by_cases hc : l.carrier = "DC"
        · refine ⟨x / (sol l.name / l.sNomOpt), ?_, ?_⟩
          · show (if l.carrier = "DC" then _ else _) = _
            rw [if_pos hc, hx, hr, hdiv]
          · rw [if_pos ⟨he, ht, hc⟩]
            show _ * (solved sol l).sNomOpt = _
            rw [eopt, hinv]
        · refine ⟨x, ?_, ?_⟩
          · show (if l.carrier = "DC" then _ else _) = _
            rw [if_neg hc, hx]
          · rw [if_neg (fun h => hc h.2.2)]
      · show 0 < (solved sol l).sNomOpt
        rw [eopt]; exact h1

theorem loop_kept (solve : Nat → List (ILine F) → Option (String → F)) (big : List (ILine F) → List (ILine F) → Bool)
    (minIt maxIt : Nat) (hsol : ∀ it ls sol, solve it ls = some sol → ∀ n, 0 < sol n)
    (it : Nat) (hit : it ≠ 0) (diff : Bool) (ls : List (ILine F)) (hls : ∀ l ∈ ls, (l.ext = true → 0 < l.sNomOpt) ∧ l.base ≠ 0)
    (res : List (ILine F)) (k : Nat) (h : loop solve big minIt maxIt it diff ls = .ok (res, k)) :
    List.Forall₂ Kept ls res := by
  have hrefl : ∀ ls : List (ILine F), (∀ l ∈ ls, l.ext = true → 0 < l.sNomOpt) → List.Forall₂ Kept ls ls := by
    intro ls h
    rw [List.forall₂_same]
    exact fun l hl => Kept.refl l (h l hl)
  induction hn : maxIt + 1 - it using Nat.strong_induction_on generalizing it diff ls with
  | _ n ih =>
    unfold loop at h
    split at h
    · split at h
      · injection h with h; injection h with h1 h2; subst h1
        exact hrefl ls (fun l hl => (hls l hl).1)
      · rename_i hle
        cases hsv : solve it ls with
        | none => rw [hsv] at h; simp at h
        | some sol =>
          rw [hsv] at h
          simp only at h
          have hstep : List.Forall₂ Kept ls (ls.map (iterStep it sol)) := by
            rw [List.forall₂_map_right_iff, List.forall₂_same]
            exact fun l hl => iterStep_kept it hit sol l (hls l hl).1 (fun _ => hsol it ls sol hsv _) (hls l hl).2
          have hls' : ∀ l ∈ ls.map (iterStep it sol), (l.ext = true → 0 < l.sNomOpt) ∧ l.base ≠ 0 := by
            intro l' hl'
            obtain ⟨l, hl, rfl⟩ := List.mem_map.mp hl'
            have := iterStep_kept it hit sol l (hls l hl).1 (fun _ => hsol it ls sol hsv _) (hls l hl).2
            exact ⟨fun he => this.pos (this.ext ▸ he), by rw [this.limits.2.2.2]; exact (hls l hl).2⟩
          have := ih (maxIt + 1 - (it + 1)) (by omega) (it + 1) (by omega) _ _ hls' h rfl
          have htr : ∀ a b c : List (ILine F), List.Forall₂ Kept a b → List.Forall₂ Kept b c → List.Forall₂ Kept a c := by
            intro a b c h1
            induction h1 generalizing c with
            | nil => intro h; exact h
            | cons h t ih =>
              intro h2
              cases h2 with
              | cons h' t' => exact List.Forall₂.cons (h.trans h') (ih _ t')
          exact htr _ _ _ hstep this
    · injection h with h; injection h with h1 h2; subst h1
      exact hrefl ls (fun l hl => (hls l hl).1)

/-- C61: the number of optimisations is at most `max_iterations`, at least `min_iterations - 1` and at least one. -/
theorem loop_count (solve : Nat → List (ILine F) → Option (String → F)) (big : List (ILine F) → List (ILine F) → Bool)
    (minIt maxIt : Nat) (unit : Option F) (thr : F) (frac : Bool) (ls : List (ILine F)) (res : List (ILine F)) (k : Nat)
    (h : expand solve big minIt maxIt unit thr frac ls = .ok (res, k)) :
    k ≤ maxIt ∧ min (max 1 (minIt - 1)) maxIt ≤ k := by
  have key : ∀ n it (diff : Bool) (ls res : List (ILine F)) k, maxIt + 1 - it = n → 0 < it → it ≤ maxIt + 1 →
      loop solve big minIt maxIt it diff ls = .ok (res, k) →
      k ≤ maxIt ∧ it - 1 ≤ k ∧ min (minIt - 1) maxIt ≤ k ∧ (diff = true → min it maxIt ≤ k) := by
    intro n
    induction n using Nat.strong_induction_on with
    | _ n ih =>
      intro it diff ls res k hn h0 hle h
      unfold loop at h
      split at h
      · split at h
        · injection h with h; injection h with h1 h2
          refine ⟨by omega, by omega, by omega, fun _ => by omega⟩
        · rename_i hlt
          cases hsv : solve it ls with
          | none => rw [hsv] at h; simp at h
          | some sol =>
            rw [hsv] at h
            simp only at h
            have := ih (maxIt + 1 - (it + 1)) (by omega) (it + 1) _ _ res k rfl (by omega) (by omega) h
            refine ⟨this.1, by omega, this.2.2.1, fun _ => by omega⟩
      · rename_i hno
        simp only [Bool.or_eq_true, decide_eq_true_eq, not_or] at hno
        injection h with h; injection h with h1 h2
        refine ⟨by omega, by omega, by omega, fun hd => absurd hd hno.1⟩
  unfold expand at h
  cases hl : loop solve big minIt maxIt 1 true (ls.map start) with
  | error e => rw [hl] at h; cases h
  | ok p =>
    obtain ⟨ls', k'⟩ := p
    rw [hl] at h
    simp only at h
    injection h with h; injection h with h1 h2
    have := key _ 1 true _ _ _ rfl (by omega) (by omega) hl
    have h3 := this.2.2.2 rfl
    omega

/-- C61 (partial): if the optimised capacities recorded beforehand are the given capacities, all of them and all
optimised ones are positive, and nothing is discretised, then reactance (AC) and resistance (DC) times capacity of
extendable lines keep their initial value, the number of parallel lines of typed lines follows the capacity,
and capacities and flags are as before.
Missing: before the first optimisation the recorded capacities are zero (`first_iteration_zero`), discretisation
(`discretised_impedance_stale`, `fixed_lines_changed`). -/
theorem expand_keeps_partial (solve : Nat → List (ILine F) → Option (String → F))
    (big : List (ILine F) → List (ILine F) → Bool) (minIt maxIt : Nat) (thr : F) (frac : Bool) (ls : List (ILine F))
    (hsol : ∀ it ls sol, solve it ls = some sol → ∀ n, 0 < sol n)
    (hls : ∀ l ∈ ls, l.sNomOpt = l.sNom ∧ 0 < l.sNom ∧ l.base ≠ 0) (res : List (ILine F)) (k : Nat)
    (h : expand solve big minIt maxIt none thr frac ls = .ok (res, k)) :
    List.Forall₂ (fun l l' => l'.name = l.name ∧ l'.ext = l.ext ∧ l'.sNom = l.sNom ∧
      (l.ext = true → l.typed = false → l.carrier = "AC" → ∀ x, l.x = .fin x →
        ∃ x', l'.x = .fin x' ∧ x' * l'.sNomOpt = x * l.sNom) ∧
      (l.ext = true → l.typed = false → l.carrier = "DC" → ∀ r, l.r = .fin r →
        ∃ r', l'.r = .fin r' ∧ r' * l'.sNomOpt = r * l.sNom) ∧
      (l.ext = true → l.typed = true → l'.numPar * l.base = l'.sNomOpt) ∧
      (l.ext = false → ∀ x, l.x = .fin x → l'.x = .fin x ∧ l'.sNomOpt = l.sNom)) ls res := by
  unfold expand at h
  cases hl : loop solve big minIt maxIt 1 true (ls.map start) with
  | error e => rw [hl] at h; cases h
  | ok p =>
    obtain ⟨ls', k'⟩ := p
    rw [hl] at h
    simp only at h
    injection h with h; injection h with h1 h2; subst h1
    have hst : ∀ l ∈ ls.map start, (l.ext = true → 0 < l.sNomOpt) ∧ l.base ≠ 0 := by
      intro l' hl'
      obtain ⟨l, hlm, rfl⟩ := List.mem_map.mp hl'
      obtain ⟨ha, hb, hc⟩ := hls l hlm
      unfold start
      split
      · exact ⟨fun _ => by show 0 < l.sNomOpt; rw [ha]; exact hb, hc⟩
      · exact ⟨fun _ => by rw [ha]; exact hb, hc⟩
    have hk := loop_kept solve big minIt maxIt hsol 1 (by omega) true _ hst _ _ hl
    clear hl h2
    rw [List.forall₂_map_left_iff] at hk
    rw [List.forall₂_map_right_iff]
    have hmem : ∀ (a b : List (ILine F)), List.Forall₂ (fun l c => Kept (start l) c) a b →
        (∀ l ∈ a, l.sNomOpt = l.sNom ∧ 0 < l.sNom ∧ l.base ≠ 0) →
        List.Forall₂ (fun l c => Kept (start l) c ∧ l.sNomOpt = l.sNom ∧ 0 < l.sNom ∧ l.base ≠ 0) a b := by
      intro a b hab
      induction hab with
      | nil => intro _; exact List.Forall₂.nil
      | cons hh t ih =>
        intro hm
        exact List.Forall₂.cons ⟨hh, hm _ (by simp)⟩ (ih (fun l hl => hm l (List.mem_cons_of_mem _ hl)))
    refine (hmem _ _ hk hls).imp ?_
    rintro l c ⟨hkc, ho, hp, hb⟩
    have s1 : (start l).ext = l.ext := by unfold start; split <;> rfl
    have s2 : (start l).typed = l.typed := by unfold start; split <;> rfl
    have s3 : (start l).carrier = l.carrier := by unfold start; split <;> rfl
    have s4 : (start l).sNom = l.sNom := by unfold start; split <;> rfl
    have s5 : (start l).sNomOpt = l.sNomOpt := by unfold start; split <;> rfl
    have s6 : (start l).x = l.x := by unfold start; split <;> rfl
    have s7 : (start l).r = l.r := by unfold start; split <;> rfl
    have s8 : (start l).base = l.base := by unfold start; split <;> rfl
    have s9 : (start l).name = l.name := by unfold start; split <;> rfl
    have hce : c.ext = l.ext := hkc.ext.trans s1
    have f1 : (final none thr frac c).name = c.name := by unfold final solved fixed; split <;> rfl
    have f2 : (final none thr frac c).ext = c.ext := by
      unfold final solved fixed; cases hx : c.ext <;> simp
    have f3 : (final none thr frac c).sNom = c.sNom := by
      unfold final solved fixed; cases hx : c.ext <;> simp
    have f4 : (final none thr frac c).x = c.x := by unfold final solved fixed; split <;> rfl
    have f5 : (final none thr frac c).r = c.r := by unfold final solved fixed; split <;> rfl
    have f6 : (final none thr frac c).sNomOpt = if c.ext then c.sNomOpt else c.sNom := by
      unfold final solved fixed; cases hx : c.ext <;> simp
    have f7 : (final none thr frac c).numPar = c.numPar := by unfold final solved fixed; split <;> rfl
    refine ⟨f1.trans (hkc.name.trans s9), f2.trans hce, f3.trans (hkc.sNom.trans s4), ?_, ?_, ?_, ?_⟩
    · intro he ht hc x hx
      obtain ⟨x', hx', e⟩ := hkc.react x (s6.trans hx)
      rw [s1, s2, s3, if_pos ⟨he, ht, hc⟩, s5, ho] at e
      exact ⟨x', f4.trans hx', by rw [f6, hce, he, if_pos rfl]; exact e⟩
    · intro he ht hc x hx
      obtain ⟨x', hx', e⟩ := hkc.resist x (s7.trans hx)
      rw [s1, s2, s3, if_pos ⟨he, ht, hc⟩, s5, ho] at e
      exact ⟨x', f5.trans hx', by rw [f6, hce, he, if_pos rfl]; exact e⟩
    · intro he ht
      have hnp : (start l).numPar * (start l).base = (start l).sNomOpt := by
        rw [s8, s5, ho]
        unfold start
        rw [he, ht]
        simp only [Bool.and_self, if_true]
        field_simp
      have := hkc.par (s1.trans he) (s2.trans ht) hnp
      rw [s8] at this
      rw [f7, f6, hce, he, if_pos rfl]
      exact this
    · intro he x hx
      obtain ⟨x', hx', e⟩ := hkc.react x (s6.trans hx)
      rw [s1, if_neg (by rw [he]; simp)] at e
      refine ⟨by rw [f4, hx', e], ?_⟩
      rw [f6, hce, he, hkc.sNom, s4]
      simp

/-- C61: with discretisation, the given capacities of extendable lines are restored as well. -/
theorem expand_restores (solve : Nat → List (ILine F) → Option (String → F))
    (big : List (ILine F) → List (ILine F) → Bool) (minIt maxIt : Nat) (unit : Option F) (thr : F) (frac : Bool)
    (ls : List (ILine F)) (res : List (ILine F)) (k : Nat)
    (h : expand solve big minIt maxIt unit thr frac ls = .ok (res, k)) :
    List.Forall₂ (fun l l' => l'.name = l.name ∧ l'.ext = l.ext ∧ (l.ext = true → l'.sNom = l.sNom)) ls res := by
  have key : ∀ n it (diff : Bool) (ls res : List (ILine F)) k, maxIt + 1 - it = n →
      loop solve big minIt maxIt it diff ls = .ok (res, k) →
      List.Forall₂ (fun l l' => l'.name = l.name ∧ l'.ext = l.ext ∧ l'.sNom = l.sNom) ls res := by
    intro n
    induction n using Nat.strong_induction_on with
    | _ n ih =>
      intro it diff ls res k hn h
      unfold loop at h
      split at h
      · split at h
        · injection h with h; injection h with h1 h2; subst h1
          rw [List.forall₂_same]; intro l _; exact ⟨rfl, rfl, rfl⟩
        · cases hsv : solve it ls with
          | none => rw [hsv] at h; simp at h
          | some sol =>
            rw [hsv] at h
            simp only at h
            have := ih (maxIt + 1 - (it + 1)) (by omega) (it + 1) _ _ res k rfl h
            rw [List.forall₂_map_left_iff] at this
            refine this.imp ?_
            rintro l c ⟨h1, h2, h3⟩
            have e : (iterStep it sol l).name = l.name ∧ (iterStep it sol l).ext = l.ext ∧
                (iterStep it sol l).sNom = l.sNom := by
              unfold iterStep updateParams solved
              simp only
              split
              · exact ⟨rfl, rfl, rfl⟩
              · split <;> exact ⟨rfl, rfl, rfl⟩
            exact ⟨h1.trans e.1, h2.trans e.2.1, h3.trans e.2.2⟩
      · injection h with h; injection h with h1 h2; subst h1
        rw [List.forall₂_same]; intro l _; exact ⟨rfl, rfl, rfl⟩
  unfold expand at h
  cases hl : loop solve big minIt maxIt 1 true (ls.map start) with
  | error e => rw [hl] at h; cases h
  | ok p =>
    obtain ⟨ls', k'⟩ := p
    rw [hl] at h
    simp only at h
    injection h with h; injection h with h1 h2; subst h1
    have hk := key _ _ _ _ _ _ rfl hl
    rw [List.forall₂_map_left_iff] at hk
    rw [List.forall₂_map_right_iff]
    refine hk.imp ?_
    rintro l c ⟨h1, h2, h3⟩
    have s1 : (start l).ext = l.ext ∧ (start l).name = l.name ∧ (start l).sNom = l.sNom := by
      unfold start; split <;> exact ⟨rfl, rfl, rfl⟩
    have hce := h2.trans s1.1
    have f1 : (final unit thr frac c).name = c.name := by
      unfold final solved fixed
      cases unit with
      | none => simp only; split <;> rfl
      | some u => by_cases hu : u = 0 <;> simp only [hu, if_true, if_false] <;> split <;> rfl
    refine ⟨f1.trans (h1.trans s1.2.1), ?_, ?_⟩
    · rw [← hce]
      unfold final solved fixed
      cases hx : c.ext with
      | true => simp
      | false =>
        simp only [Bool.false_eq_true, if_false]
        cases unit with
        | none => rfl
        | some u => by_cases hu : u = 0 <;> simp [hu]
    · intro he
      rw [← s1.2.2, ← h3]
      unfold final
      rw [hce, he]
      rfl

omit [IsStrictOrderedRing F] in
/-- C61: without discretisation, lines that are not to be expanded stay as they are, whatever the optimisations return; the capacity
recorded as optimal is their capacity. -/
theorem expand_leaves_fixed (solve : Nat → List (ILine F) → Option (String → F)) (big : List (ILine F) → List (ILine F) → Bool)
    (minIt maxIt : Nat) (thr : F) (frac : Bool) (ls res : List (ILine F)) (k : Nat)
    (h : expand solve big minIt maxIt none thr frac ls = .ok (res, k)) :
    List.Forall₂ (fun l l' => l.ext = false → l' = { l with sNomOpt := l.sNom }) ls res := by
  have step : ∀ it sol (l : ILine F), l.ext = false → iterStep it sol l = { l with sNomOpt := l.sNom } := by
    intro it sol l hl
    unfold iterStep updateParams solved
    simp [hl]
  have key : ∀ m it diff (ls : List (ILine F)) res k, maxIt + 1 - it = m → loop solve big minIt maxIt it diff ls = .ok (res, k) →
      List.Forall₂ (fun l c => l.ext = false → ∃ y, c = { l with sNomOpt := y }) ls res := by
    intro m
    induction m using Nat.strong_induction_on with
    | _ m ih =>
      intro it diff ls res k hm h
      unfold loop at h
      split at h
      · split at h
        · injection h with h; injection h with h1 h2; subst h1
          rw [List.forall₂_same]; exact fun l _ _ => ⟨l.sNomOpt, rfl⟩
        · rename_i hlt
          cases hsv : solve it ls with
          | none => rw [hsv] at h; simp at h
          | some sol =>
            rw [hsv] at h
            simp only at h
            have := ih (maxIt + 1 - (it + 1)) (by omega) (it + 1) _ _ res k rfl h
            rw [List.forall₂_map_left_iff] at this
            refine this.imp fun l c hc hl => ?_
            rw [step it sol l hl] at hc
            exact hc hl
      · injection h with h; injection h with h1 h2; subst h1
        rw [List.forall₂_same]; exact fun l _ _ => ⟨l.sNomOpt, rfl⟩
  unfold expand at h
  cases hl : loop solve big minIt maxIt 1 true (ls.map start) with
  | error e => rw [hl] at h; cases h
  | ok p =>
    obtain ⟨ls', k'⟩ := p
    rw [hl] at h
    simp only at h
    injection h with h; injection h with h1 h2; subst h1
    have hk := key _ _ _ _ _ _ rfl hl
    rw [List.forall₂_map_left_iff] at hk
    rw [List.forall₂_map_right_iff]
    refine hk.imp fun l c hc he => ?_
    have hs : start l = l := by unfold start; simp [he]
    rw [hs] at hc
    obtain ⟨y, rfl⟩ := hc he
    unfold final fixed solved
    simp [he]

/-- The totals of the objective and its constant are as without the correction. -/
theorem objectives_sum (obj const links : F) (ls : List (ILine F)) :
    (objectives obj const links ls).1 + (objectives obj const links ls).2 = obj + const := by
  unfold objectives; ring

/-! ## Examples and findings -/

def exLine : ILine ℚ :=
  ⟨"l", true, false, "AC", 10, 10, 0, none, 3, .fin 2, .fin 1, 1, 1⟩

/-- 10 MW are expanded to 20 MW and then 40 MW. -/
example : (expand (fun it _ => some (fun _ => if it = 1 then 20 else 40)) (fun _ _ => true) 1 2 none 0 false [exLine]).toOption.map
    (fun p => (p.1.map (fun l => (l.sNomOpt, l.sNom, l.x)), p.2)) = some ([(40, 10, .fin (1 / 2))], 2) := by decide +kernel

/-- A line with a standard type that is not to be expanded keeps its number of parallel lines. -/
example : (expand (fun it _ => some (fun _ => if it = 1 then 20 else 40)) (fun _ _ => true) 1 2 none 0 false
    [{ exLine with ext := false, typed := true }, exLine]).toOption.map
    (fun p => p.1.map (fun l => (l.sNomOpt, l.numPar))) = some [(10, 1), (40, 1)] := by decide +kernel

/-- **Finding** (abstract.py 283, 288): without previous results the recorded capacity is zero, so that
the reactance of an expanded line becomes zero after the first iteration. -/
theorem first_iteration_zero : ∀ l : ILine ℚ, l.ext = true → l.typed = false → l.carrier = "AC" → l.sNomOpt = 0 →
    ∀ x, l.x = .fin x → ∀ sol : String → ℚ, sol l.name ≠ 0 → (iterStep 1 sol l).x = .fin 0 := by
  intro l he ht hc ho x hx sol hs
  unfold iterStep previous solved updateParams
  simp [he, ht, hc, ho, ratio, hs, hx, Num.div]

/-- **Finding** (abstract.py 284): with `min_iterations` 3 only two optimisations may be run. -/
theorem min_iterations_off_by_one :
    (expand (fun _ _ => some (fun _ => 20)) (fun _ _ => false) 3 100 none 0 false [exLine]).toOption.map (·.2) = some 2 := by
  decide +kernel

/-- **Finding** (abstract.py 245-256, 341): discretisation overwrites the given capacity of lines that are not
extendable, and it is not restored. -/
theorem fixed_lines_changed :
    (expand (fun _ _ => some (fun _ => 20)) (fun _ _ => false) 1 100 (some 7) 0 false [{ exLine with ext := false }]).toOption.map
      (fun p => p.1.map (fun l => l.sNom)) = some [14] := by
  decide +kernel

/-- **Finding** (abstract.py 245-256): the impedance is not adapted to the discretised capacity. -/
theorem discretised_impedance_stale :
    (expand (fun _ _ => some (fun _ => 20)) (fun _ _ => false) 1 100 (some 15) 0 false [exLine]).toOption.map
      (fun p => p.1.map (fun l => (l.sNomOpt, l.x))) = some [(30, .fin 1)] := by
  decide +kernel

/-- **Finding** (abstract.py 344-350): objective plus constant do not include the cost of the expanded lines: nothing but
a line expanded from 10 to 20 at cost 3 each. -/
theorem total_excludes_lines : let l : ILine ℚ := { exLine with sNomOpt := 20 }
    (objectives 0 0 0 [l]).1 + (objectives 0 0 0 [l]).2 = 0 ∧ l.cost * l.sNomOpt = 60 := by
  decide +kernel

end Verif.Opt.Iterative
