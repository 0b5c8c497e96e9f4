import Verif.PowerFlow.Linear
import Mathlib.LinearAlgebra.Matrix.ToLinearEquiv
import Mathlib.Logic.Relation
import Mathlib.Algebra.Order.Field.Basic
import Mathlib.Algebra.Order.BigOperators.Ring.Finset
import Mathlib.Tactic.Ring
import Mathlib.Tactic.Linarith
import Mathlib.Tactic.LinearCombination
import Mathlib.Tactic.FieldSimp
import Mathlib.Algebra.Order.Ring.Rat

/-!
# Properties C25-C29: linear power flow, PTDF and BODF
-/

namespace Verif.PowerFlow

open Matrix

/-! ### Specifications, independent of the matrices of the model -/

section spec
variable {F : Type} [Field F] {n m : Nat}

/-- Power leaving the bus `i` over the branches. -/
def outflow (g : Grid F n m) (f : Fin m → F) (i : Fin (n + 1)) : F :=
  (∑ l, if g.bus0 l = i then f l else 0) - ∑ l, if g.bus1 l = i then f l else 0

/-- The flows come from bus angles: impedance times flow is the angle difference less the
phase shift. -/
def FromAngles (g : Grid F n m) (f : Fin m → F) (θ : Fin (n + 1) → F) : Prop :=
  ∀ l, g.z l * f l = θ (g.bus0 l) - θ (g.bus1 l) - g.shift l

/-- Every bus is reached from the slack bus. -/
def Connected (g : Grid F n m) : Prop :=
  ∀ i, Relation.ReflTransGen (fun x y => ∃ l, (g.bus0 l = x ∧ g.bus1 l = y) ∨
    (g.bus0 l = y ∧ g.bus1 l = x)) 0 i

/-- **Library assumption** on `spsolve`: it solves regular systems. -/
def Solves (solve : Solve F) : Prop :=
  ∀ {n : Nat} (A : Matrix (Fin n) (Fin n) F) (b : Fin n → F), A.det ≠ 0 → A *ᵥ solve _ A b = b

/-- The assumption can be met: multiplication with the inverse. -/
theorem solves_inverse : Solves (F := F) (fun _ A b => A⁻¹ *ᵥ b) := by
  intro n A b h
  rw [Matrix.mulVec_mulVec, Matrix.mul_nonsing_inv _ (isUnit_iff_ne_zero.2 h), Matrix.one_mulVec]

/-- The sub-network after the outage of branch `l`. -/
def outage (g : Grid F n (m + 1)) (l : Fin (m + 1)) : Grid F n m where
  bus0 := fun k => g.bus0 (l.succAbove k)
  bus1 := fun k => g.bus1 (l.succAbove k)
  z := fun k => g.z (l.succAbove k)
  shift := fun k => g.shift (l.succAbove k)

end spec

/-! ### Lemmas -/

section lemmas
variable {F : Type} [Field F] {n m : Nat}

theorem K_mulVec (g : Grid F n m) (f : Fin m → F) (i : Fin (n + 1)) :
    (g.K *ᵥ f) i = outflow g f i := by
  simp only [Matrix.mulVec, dotProduct, Grid.K, outflow, sub_mul, Finset.sum_sub_distrib, ite_mul,
    one_mul, zero_mul]

theorem Kt_mulVec (g : Grid F n m) (θ : Fin (n + 1) → F) (l : Fin m) :
    (g.K.transpose *ᵥ θ) l = θ (g.bus0 l) - θ (g.bus1 l) := by
  simp only [Matrix.mulVec, dotProduct, Matrix.transpose_apply, Grid.K, sub_mul,
    Finset.sum_sub_distrib, ite_mul, one_mul, zero_mul]
  rw [Finset.sum_ite_eq, Finset.sum_ite_eq]; simp

theorem H_mulVec (g : Grid F n m) (θ : Fin (n + 1) → F) (l : Fin m) :
    (g.H *ᵥ θ) l = g.b l * (θ (g.bus0 l) - θ (g.bus1 l)) := by
  rw [Grid.H, ← Matrix.mulVec_mulVec, Matrix.mulVec_diagonal, Kt_mulVec]

theorem B_mulVec (g : Grid F n m) (θ : Fin (n + 1) → F) : g.B *ᵥ θ = g.K *ᵥ (g.H *ᵥ θ) := by
  rw [Grid.B, Matrix.mulVec_mulVec]

theorem outflow_sum (g : Grid F n m) (f : Fin m → F) : ∑ i, outflow g f i = 0 := by
  simp only [outflow, Finset.sum_sub_distrib]
  rw [Finset.sum_comm, sub_eq_zero, Finset.sum_comm (f := fun i l => if g.bus1 l = i then f l else 0)]
  apply Finset.sum_congr rfl
  intro l _
  rw [Finset.sum_ite_eq, Finset.sum_ite_eq]; simp

/-- Power pairing: outflows against angles are flows against differences. -/
theorem outflow_pair (g : Grid F n m) (f : Fin m → F) (θ : Fin (n + 1) → F) :
    ∑ i, outflow g f i * θ i = ∑ l, f l * (θ (g.bus0 l) - θ (g.bus1 l)) := by
  have h : ∀ (e : Fin m → Fin (n + 1)),
      ∑ i, (∑ l, if e l = i then f l else 0) * θ i = ∑ l, f l * θ (e l) := by
    intro e
    simp only [Finset.sum_mul, ite_mul, zero_mul]
    rw [Finset.sum_comm]
    apply Finset.sum_congr rfl
    intro l _
    rw [Finset.sum_ite_eq]; simp
  simp only [outflow, sub_mul, Finset.sum_sub_distrib, mul_sub, h]

theorem outflow_add (g : Grid F n m) (f f' : Fin m → F) (i : Fin (n + 1)) :
    outflow g (f + f') i = outflow g f i + outflow g f' i := by
  simp only [← K_mulVec, Matrix.mulVec_add, Pi.add_apply]

theorem outflow_smul (g : Grid F n m) (c : F) (f : Fin m → F) (i : Fin (n + 1)) :
    outflow g (c • f) i = c * outflow g f i := by
  simp only [← K_mulVec, Matrix.mulVec_smul, Pi.smul_apply, smul_eq_mul]

theorem outflow_single (g : Grid F n m) (l : Fin m) (i : Fin (n + 1)) :
    outflow g (Pi.single l 1) i = g.K i l := by
  rw [← K_mulVec, Matrix.mulVec_single_one]; rfl

theorem Bred_mulVec (g : Grid F n m) (v : Fin n → F) (i : Fin n) :
    (g.Bred *ᵥ v) i = (g.B *ᵥ (Fin.cons 0 v : Fin (n + 1) → F)) i.succ := by
  simp only [Matrix.mulVec, dotProduct, Grid.Bred, Matrix.submatrix_apply]
  rw [Fin.sum_univ_succ]
  simp

end lemmas

section ordered
variable {F : Type} [Field F] [LinearOrder F] [IsStrictOrderedRing F] {n m : Nat}

/-- If the weighted squares of the differences vanish, the angles are constant. -/
theorem angles_const (g : Grid F n m) (hc : Connected g) (θ : Fin (n + 1) → F)
    (h : ∀ l, θ (g.bus0 l) - θ (g.bus1 l) = 0) (i : Fin (n + 1)) : θ i = θ 0 := by
  induction hc i with
  | refl => rfl
  | tail _ h' ih =>
    obtain ⟨l, ⟨h0, h1⟩ | ⟨h0, h1⟩⟩ := h'
    · have := h l; rw [h0, h1] at this; rw [← ih]; linear_combination -this
    · have := h l; rw [h0, h1] at this; rw [← ih]; linear_combination this

/-- **Solvability.** In a connected sub-network with positive impedances the linear system of
the power flow is regular. -/
theorem Bred_regular (g : Grid F n m) (hz : ∀ l, 0 < g.z l) (hc : Connected g) :
    g.Bred.det ≠ 0 := by
  intro hdet
  obtain ⟨v, hv, h0⟩ := Matrix.exists_mulVec_eq_zero_iff.2 hdet
  apply hv
  let θ : Fin (n + 1) → F := Fin.cons 0 v
  have hB : ∀ i : Fin n, (g.B *ᵥ θ) i.succ = 0 := by
    intro i
    rw [← Bred_mulVec, h0]; rfl
  have hquad : ∑ i, (g.B *ᵥ θ) i * θ i = 0 := by
    rw [Fin.sum_univ_succ]
    simp only [hB, zero_mul, Finset.sum_const_zero, add_zero]
    simp [θ]
  have hK : ∀ i, (g.B *ᵥ θ) i = outflow g (g.H *ᵥ θ) i := by
    intro i; rw [B_mulVec, K_mulVec]
  simp only [hK] at hquad
  rw [outflow_pair] at hquad
  simp only [H_mulVec] at hquad
  have hnn : ∀ l ∈ Finset.univ, 0 ≤ g.b l * (θ (g.bus0 l) - θ (g.bus1 l)) *
      (θ (g.bus0 l) - θ (g.bus1 l)) := by
    intro l _
    have hb : 0 < g.b l := by unfold Grid.b; exact one_div_pos.2 (hz l)
    rw [mul_assoc]
    exact mul_nonneg hb.le (mul_self_nonneg _)
  have hall := (Finset.sum_eq_zero_iff_of_nonneg hnn).1 hquad
  have hconst := angles_const g hc θ (by
    intro l
    have := hall l (Finset.mem_univ l)
    have hb : g.b l ≠ 0 := by unfold Grid.b; exact (one_div_pos.2 (hz l)).ne'
    rcases mul_eq_zero.1 this with h | h
    · rcases mul_eq_zero.1 h with h | h
      · exact absurd h hb
      · exact h
    · exact h)
  funext i
  have := hconst i.succ
  simpa [θ] using this

/-- **Uniqueness.** Positive impedances: two sets of flows with the same outflows, both coming
from angles, are equal. -/
theorem flows_unique (g : Grid F n m) (hz : ∀ l, 0 < g.z l) (f f' : Fin m → F)
    (θ θ' : Fin (n + 1) → F) (hf : FromAngles g f θ) (hf' : FromAngles g f' θ')
    (hout : ∀ i, outflow g f i = outflow g f' i) : f = f' := by
  have hd : ∀ i, outflow g (f + (-1 : F) • f') i = 0 := by
    intro i; rw [outflow_add, outflow_smul, hout i]; ring
  have hp := outflow_pair g (f + (-1 : F) • f') (fun i => θ i - θ' i)
  simp only [hd, zero_mul, Finset.sum_const_zero, Pi.add_apply, Pi.smul_apply, smul_eq_mul] at hp
  have hterm : ∀ l, (f l + -1 * f' l) * (θ (g.bus0 l) - θ' (g.bus0 l) -
      (θ (g.bus1 l) - θ' (g.bus1 l))) = g.z l * ((f l - f' l) * (f l - f' l)) := by
    intro l
    have h1 := hf l
    have h2 := hf' l
    linear_combination (f l - f' l) * (h2 - h1)
  simp only [hterm] at hp
  have hall := (Finset.sum_eq_zero_iff_of_nonneg (fun l _ =>
    mul_nonneg (hz l).le (mul_self_nonneg (f l - f' l)))).1 hp.symm
  funext l
  have := hall l (Finset.mem_univ l)
  rcases mul_eq_zero.1 this with h | h
  · exact absurd h (hz l).ne'
  · rcases mul_eq_zero.1 h with h | h <;> linear_combination h

end ordered

/-! ### C25 -/

section C25
variable {F : Type} [Field F] {n m : Nat}

/-- A regular system without branches has no bus but the slack. -/
theorem no_buses_of_no_branches (g : Grid F n 0) (hreg : g.Bred.det ≠ 0) : n = 0 := by
  cases n with
  | zero => rfl
  | succ n =>
    exfalso
    apply hreg
    have : g.Bred = 0 := by
      ext i j
      simp [Grid.Bred, Grid.B]
    rw [this, Matrix.det_zero]

/-- **C25.** After the linear power flow, at every bus the injection (including the slack
adjustment) equals the power leaving over the branches; non-slack buses keep their injection;
the slack takes up exactly the total imbalance. -/
theorem lpf_balance (solve : Solve F) (hs : Solves solve) (g : Grid F n m)
    (hreg : g.Bred.det ≠ 0) (p : Fin (n + 1) → F) :
    (∀ i, outflow g (flows solve g p) i = busP p i) ∧
    (∀ i : Fin n, busP p i.succ = p i.succ) ∧
    busP p 0 - p 0 = - ∑ i, p i := by
  have hsucc : ∀ i : Fin n, busP p i.succ = p i.succ := by
    intro i; unfold busP; rw [Function.update_of_ne (Fin.succ_ne_zero i)]
  have hzero : busP p 0 = - ∑ i : Fin n, p i.succ := by
    simp [busP, slackAdjustment]
  refine ⟨?_, hsucc, ?_⟩
  · have hn : ∀ i : Fin n, outflow g (flows solve g p) i.succ = p i.succ := by
      intro i
      by_cases hm : m = 0
      · subst hm
        have := no_buses_of_no_branches g hreg
        subst this
        exact i.elim0
      · rw [← K_mulVec, flows, Matrix.mulVec_add, ← B_mulVec, Pi.add_apply]
        simp only [vDiff, hm, if_false]
        rw [← Bred_mulVec, hs _ _ hreg]
        simp [Grid.pBusShift]
    intro i
    refine Fin.cases ?_ (fun i => ?_) i
    · have h0 := outflow_sum g (flows solve g p)
      rw [Fin.sum_univ_succ] at h0
      simp only [hn] at h0
      rw [hzero]
      linear_combination h0
    · rw [hn, hsucc]
  · rw [hzero, Fin.sum_univ_succ]; ring

/-! ### C26 -/

/-- **C26.** The flows are the angle differences less the phase shifts divided by the
impedance, with angle zero at the slack; around every cycle (any combination of branches
with no net outflow) impedance times flow plus phase shift adds up to zero. -/
theorem lpf_kvl (solve : Solve F) (g : Grid F n m) (hz : ∀ l, g.z l ≠ 0) (p : Fin (n + 1) → F) :
    FromAngles g (flows solve g p) (vDiff solve g p) ∧ vDiff solve g p 0 = 0 ∧
    ∀ c : Fin m → F, (∀ i, outflow g c i = 0) →
      ∑ l, c l * (g.z l * flows solve g p l + g.shift l) = 0 := by
  have h1 : FromAngles g (flows solve g p) (vDiff solve g p) := by
    intro l
    have : flows solve g p l = g.b l * (vDiff solve g p (g.bus0 l) - vDiff solve g p (g.bus1 l)) +
        - g.b l * g.shift l := by
      simp only [flows, Pi.add_apply, H_mulVec, Grid.pBranchShift]
    rw [this]
    have hb : g.z l * g.b l = 1 := by unfold Grid.b; field_simp [hz l]
    linear_combination (vDiff solve g p (g.bus0 l) - vDiff solve g p (g.bus1 l) - g.shift l) * hb
  refine ⟨h1, ?_, ?_⟩
  · unfold vDiff; split <;> simp
  · intro c hc
    have := outflow_pair g c (vDiff solve g p)
    simp only [hc, zero_mul, Finset.sum_const_zero] at this
    rw [this]
    apply Finset.sum_congr rfl
    intro l _
    rw [h1 l]; ring

/-! ### C27 -/

theorem solve_unique (solve : Solve F) (hs : Solves solve) {k : Nat}
    (A : Matrix (Fin k) (Fin k) F) (hA : A.det ≠ 0) (b x : Fin k → F) (hx : A *ᵥ x = b) :
    solve _ A b = x := by
  have h := hs A b hA
  have : A *ᵥ (solve _ A b - x) = 0 := by rw [Matrix.mulVec_sub, h, hx, sub_self]
  by_contra hne
  exact hA (Matrix.exists_mulVec_eq_zero_iff.1 ⟨_, sub_ne_zero.2 hne, this⟩)

/-- **C27, superposition.** Without phase shifts the flows depend linearly on the injections. -/
theorem lpf_linear (solve : Solve F) (hs : Solves solve) (g : Grid F n m)
    (hreg : g.Bred.det ≠ 0) (hsh : ∀ l, g.shift l = 0) (p q : Fin (n + 1) → F) (a c : F) :
    flows solve g (a • p + c • q) = a • flows solve g p + c • flows solve g q := by
  have hbs : g.pBranchShift = 0 := by funext l; simp [Grid.pBranchShift, hsh]
  have hbus : g.pBusShift = 0 := by simp [Grid.pBusShift, hbs]
  have hv : vDiff solve g (a • p + c • q) = a • vDiff solve g p + c • vDiff solve g q := by
    unfold vDiff
    split
    · simp
    · rw [solve_unique solve hs g.Bred hreg _
        (a • solve _ g.Bred (fun i => (p - g.pBusShift) i.succ) +
          c • solve _ g.Bred (fun i => (q - g.pBusShift) i.succ))]
      · funext i
        refine Fin.cases ?_ (fun i => ?_) i <;> simp
      · rw [Matrix.mulVec_add, Matrix.mulVec_smul, Matrix.mulVec_smul, hs _ _ hreg, hs _ _ hreg]
        funext i
        simp [hbus]
  unfold flows
  rw [hv, hbs, Matrix.mulVec_add, Matrix.mulVec_smul, Matrix.mulVec_smul]
  simp

/-- The same sub-network with the buses in another order (in particular another slack bus). -/
def reorder (σ : Equiv.Perm (Fin (n + 1))) (g : Grid F n m) : Grid F n m where
  bus0 := fun l => σ (g.bus0 l)
  bus1 := fun l => σ (g.bus1 l)
  z := g.z
  shift := g.shift

end C25

section C27
variable {F : Type} [Field F] [LinearOrder F] [IsStrictOrderedRing F] {n m : Nat}

omit [Field F] [LinearOrder F] [IsStrictOrderedRing F] in
/-- Connectedness does not depend on the order of the buses. -/
theorem connected_reorder (g : Grid F n m) (hc : Connected g) (σ : Equiv.Perm (Fin (n + 1))) :
    Connected (reorder σ g) := by
  have key : ∀ a b, Relation.ReflTransGen (fun x y => ∃ l, (g.bus0 l = x ∧ g.bus1 l = y) ∨
      (g.bus0 l = y ∧ g.bus1 l = x)) a b →
      Relation.ReflTransGen (fun x y => ∃ l, ((reorder σ g).bus0 l = x ∧ (reorder σ g).bus1 l = y) ∨
      ((reorder σ g).bus0 l = y ∧ (reorder σ g).bus1 l = x)) (σ a) (σ b) := by
    intro a b h
    induction h with
    | refl => exact .refl
    | tail _ h ih =>
      obtain ⟨l, ⟨rfl, rfl⟩ | ⟨rfl, rfl⟩⟩ := h
      · exact ih.tail ⟨l, Or.inl ⟨rfl, rfl⟩⟩
      · exact ih.tail ⟨l, Or.inr ⟨rfl, rfl⟩⟩
  have symm : ∀ a b, Relation.ReflTransGen (fun x y => ∃ l, (g.bus0 l = x ∧ g.bus1 l = y) ∨
      (g.bus0 l = y ∧ g.bus1 l = x)) a b →
      Relation.ReflTransGen (fun x y => ∃ l, (g.bus0 l = x ∧ g.bus1 l = y) ∨
      (g.bus0 l = y ∧ g.bus1 l = x)) b a := by
    intro a b h
    induction h with
    | refl => exact .refl
    | tail _ h ih =>
      obtain ⟨l, h⟩ := h
      exact .head ⟨l, h.symm⟩ ih
  intro i
  have h1 := key _ _ (symm _ _ (hc (σ.symm 0)))
  have h2 := key _ _ (hc (σ.symm i))
  simp only [Equiv.apply_symm_apply] at h1 h2
  exact h1.trans h2

/-- **C27, slack independence.** For balanced injections the flows do not depend on the order
of the buses, in particular not on which bus is the slack. -/
theorem lpf_slack_independent (solve : Solve F) (hs : Solves solve) (g : Grid F n m)
    (hz : ∀ l, 0 < g.z l) (hc : Connected g) (σ : Equiv.Perm (Fin (n + 1)))
    (p : Fin (n + 1) → F) (hp : ∑ i, p i = 0) :
    flows solve (reorder σ g) (fun i => p (σ.symm i)) = flows solve g p := by
  have hz' : ∀ l, 0 < (reorder σ g).z l := hz
  have hc' := connected_reorder g hc σ
  have bal := (lpf_balance solve hs g (Bred_regular g hz hc) p)
  have bal' := (lpf_balance solve hs (reorder σ g) (Bred_regular _ hz' hc')
    (fun i => p (σ.symm i)))
  have hbus : ∀ i, busP p i = p i := by
    intro i
    refine Fin.cases ?_ (fun i => bal.2.1 i) i
    have := bal.2.2; rw [hp] at this; linear_combination this
  have hp' : ∑ i, p (σ.symm i) = 0 := by rw [Equiv.sum_comp σ.symm p, hp]
  have hbus' : ∀ i, busP (fun i => p (σ.symm i)) i = p (σ.symm i) := by
    intro i
    refine Fin.cases ?_ (fun i => bal'.2.1 i) i
    have := bal'.2.2; rw [hp'] at this; linear_combination this
  have kvl' := (lpf_kvl solve (reorder σ g) (fun l => (hz l).ne') (fun i => p (σ.symm i))).1
  have kvl := (lpf_kvl solve g (fun l => (hz l).ne') p).1
  refine flows_unique g hz _ _ (fun i => vDiff solve (reorder σ g) (fun i => p (σ.symm i)) (σ i))
    (vDiff solve g p) ?_ kvl ?_
  · intro l; exact kvl' l
  · intro i
    rw [bal.1 i, hbus i]
    have := bal'.1 (σ i)
    rw [hbus' (σ i), Equiv.symm_apply_apply] at this
    rw [← this]
    simp only [outflow, reorder, EmbeddingLike.apply_eq_iff_eq]

end C27

/-! ### C28 -/

section C28
variable {F : Type} [Field F] {n m : Nat}

theorem ptdf_mulVec (solve : Solve F) (hs : Solves solve) (g : Grid F n m)
    (hreg : g.Bred.det ≠ 0) (p : Fin (n + 1) → F) :
    Binv solve g *ᵥ p = Fin.cons 0 (solve _ g.Bred (fun i => p i.succ)) := by
  have hcol : ∀ j : Fin n, g.Bred *ᵥ (fun i => solve _ g.Bred (fun k => if k = j then 1 else 0) i) =
      (fun k => if k = j then 1 else 0) := fun j => hs _ _ hreg
  funext i
  refine Fin.cases ?_ (fun i => ?_) i
  · simp [Matrix.mulVec, dotProduct, Binv]
  · rw [Fin.cons_succ, solve_unique solve hs g.Bred hreg (fun i => p i.succ)
      (∑ j, p j.succ • fun i => solve _ g.Bred (fun k => if k = j then 1 else 0) i)]
    · simp only [Matrix.mulVec, dotProduct, Binv, Fin.sum_univ_succ, Fin.cases_zero, Fin.cases_succ,
        zero_mul, zero_add, Finset.sum_apply, Pi.smul_apply, smul_eq_mul]
      apply Finset.sum_congr rfl
      intro j _; ring
    · rw [Matrix.mulVec_sum]
      simp only [Matrix.mulVec_smul, hcol]
      funext k
      simp

/-- **C28.** PTDF times injections are the flows of the linear power flow, for every injection
vector (balanced or not); with phase shifters the shift terms are added.  The slack column is
zero. -/
theorem ptdf_reproduces_lpf (solve : Solve F) (hs : Solves solve) (g : Grid F n m)
    (hreg : g.Bred.det ≠ 0) (p : Fin (n + 1) → F) :
    flows solve g p = ptdf solve g *ᵥ (p - g.pBusShift) + g.pBranchShift ∧
    ((∀ l, g.shift l = 0) → flows solve g p = ptdf solve g *ᵥ p) ∧
    ∀ l, ptdf solve g l 0 = 0 := by
  have h1 : flows solve g p = ptdf solve g *ᵥ (p - g.pBusShift) + g.pBranchShift := by
    unfold flows ptdf
    rw [← Matrix.mulVec_mulVec, ptdf_mulVec solve hs g hreg]
    congr 1
    unfold vDiff
    split
    · rename_i hm
      subst hm
      funext l; exact l.elim0
    · rfl
  refine ⟨h1, ?_, ?_⟩
  · intro hsh
    have hbs : g.pBranchShift = 0 := by funext l; simp [Grid.pBranchShift, hsh]
    have hbus : g.pBusShift = 0 := by simp [Grid.pBusShift, hbs]
    rw [h1, hbs, hbus]; simp
  · intro l
    unfold ptdf
    rw [Matrix.mul_apply]
    apply Finset.sum_eq_zero
    intro i _
    refine Fin.cases ?_ (fun i => ?_) i <;> simp [Binv]

end C28

/-! ### C29 -/

section C29
variable {F : Type} [Field F] [LinearOrder F] [IsStrictOrderedRing F] {n m : Nat}

/-- A grid without its phase shifts. -/
def unshifted (g : Grid F n m) : Grid F n m := { g with shift := fun _ => 0 }

omit [LinearOrder F] [IsStrictOrderedRing F] in
theorem unshifted_ptdf (solve : Solve F) (g : Grid F n m) :
    ptdf solve (unshifted g) = ptdf solve g := rfl

omit [LinearOrder F] [IsStrictOrderedRing F] in
theorem unshifted_outflow (g : Grid F n m) (f : Fin m → F) (i : Fin (n + 1)) :
    outflow (unshifted g) f i = outflow g f i := rfl

/-- A column of `branch_PTDF` are the flows caused by one unit sent from `bus0` to `bus1`. -/
theorem branchPtdf_column (solve : Solve F) (hs : Solves solve) (g : Grid F n m)
    (hz : ∀ l, 0 < g.z l) (hreg : g.Bred.det ≠ 0) (l : Fin m) :
    ∃ θ : Fin (n + 1) → F,
      (∀ k, g.z k * branchPtdf solve g k l = θ (g.bus0 k) - θ (g.bus1 k)) ∧
      ∀ i, outflow g (fun k => branchPtdf solve g k l) i = g.K i l := by
  let q : Fin (n + 1) → F := fun i => g.K i l
  have hreg' : (unshifted g).Bred.det ≠ 0 := hreg
  have hcol : (fun k => branchPtdf solve g k l) = flows solve (unshifted g) q := by
    rw [(ptdf_reproduces_lpf solve hs (unshifted g) hreg' q).2.1 (fun _ => rfl), unshifted_ptdf]
    funext k
    simp only [branchPtdf, Matrix.mul_apply, Matrix.mulVec, dotProduct, q]
  have kvl := (lpf_kvl solve (unshifted g) (fun l => (hz l).ne') q).1
  have bal := lpf_balance solve hs (unshifted g) hreg' q
  have hq : ∑ i, q i = 0 := by
    have := outflow_sum g (Pi.single l 1)
    simpa only [outflow_single] using this
  have hbus : ∀ i, busP q i = q i := by
    intro i
    refine Fin.cases ?_ (fun i => bal.2.1 i) i
    have := bal.2.2; rw [hq] at this; linear_combination this
  refine ⟨vDiff solve (unshifted g) q, ?_, ?_⟩
  · intro k
    have := kvl k
    rw [← hcol] at this
    simpa [unshifted] using this
  · intro i
    rw [hcol]
    rw [← unshifted_outflow, bal.1 i, hbus i]

/-- If the network stays connected without branch `l`, not all of a unit sent between its ends
flows over it. -/
theorem branchPtdf_ne_one (solve : Solve F) (hs : Solves solve) (g : Grid F n (m + 1))
    (hz : ∀ l, 0 < g.z l) (hreg : g.Bred.det ≠ 0) (l : Fin (m + 1))
    (hc : Connected (outage g l)) : 1 - branchPtdf solve g l l ≠ 0 := by
  intro h1
  obtain ⟨θ, hθ, hout⟩ := branchPtdf_column solve hs g hz hreg l
  have hd : ∀ i, outflow g ((fun k => branchPtdf solve g k l) + (-1 : F) • Pi.single l 1) i = 0 := by
    intro i; rw [outflow_add, outflow_smul, outflow_single, hout]; ring
  have hp := outflow_pair g ((fun k => branchPtdf solve g k l) + (-1 : F) • Pi.single l 1) θ
  simp only [hd, zero_mul, Finset.sum_const_zero, Pi.add_apply, Pi.smul_apply, smul_eq_mul] at hp
  rw [Fin.sum_univ_succAbove _ l] at hp
  simp only [Pi.single_eq_same] at hp
  have hne : ∀ k : Fin m, (Pi.single l (1 : F) : Fin (m + 1) → F) (l.succAbove k) = 0 := by
    intro k; rw [Pi.single_eq_of_ne (Fin.succAbove_ne l k)]
  simp only [hne, mul_zero, add_zero] at hp
  have h0 : branchPtdf solve g l l + -1 * 1 = 0 := by linear_combination -h1
  rw [h0, zero_mul, zero_add] at hp
  have hterm : ∀ k : Fin m, branchPtdf solve g (l.succAbove k) l *
      (θ (g.bus0 (l.succAbove k)) - θ (g.bus1 (l.succAbove k))) =
      g.z (l.succAbove k) * (branchPtdf solve g (l.succAbove k) l *
        branchPtdf solve g (l.succAbove k) l) := by
    intro k; rw [← hθ]; ring
  simp only [hterm] at hp
  have hall := (Finset.sum_eq_zero_iff_of_nonneg (fun k _ =>
    mul_nonneg (hz (l.succAbove k)).le (mul_self_nonneg _))).1 hp.symm
  have hconst := angles_const (outage g l) hc θ (by
    intro k
    have := hall k (Finset.mem_univ k)
    rcases mul_eq_zero.1 this with h | h
    · exact absurd h (hz _).ne'
    · have hzero : branchPtdf solve g (l.succAbove k) l = 0 := by
        rcases mul_eq_zero.1 h with h | h <;> exact h
      have := hθ (l.succAbove k)
      rw [hzero, mul_zero] at this
      exact this.symm)
  have := hθ l
  rw [hconst (g.bus0 l), hconst (g.bus1 l), sub_self] at this
  rcases mul_eq_zero.1 this with h | h
  · exact (hz l).ne' h
  · rw [h] at h1; simp at h1

/-- **C29.** If the network stays connected without branch `l`, the flows
`f k + BODF k l * f l` are those of the linear power flow without that branch, and the flow on
the branch itself becomes zero. -/
theorem bodf_exact (solve : Solve F) (hs : Solves solve) (g : Grid F n (m + 1))
    (hz : ∀ l, 0 < g.z l) (hreg : g.Bred.det ≠ 0) (l : Fin (m + 1))
    (hc : Connected (outage g l)) (p : Fin (n + 1) → F) :
    (∀ k : Fin m, flows solve g p (l.succAbove k) +
        bodf solve g (l.succAbove k) l * flows solve g p l = flows solve (outage g l) p k) ∧
    flows solve g p l + bodf solve g l l * flows solve g p l = 0 := by
  have hself : bodf solve g l l = -1 := by simp [bodf]
  refine ⟨?_, by rw [hself]; ring⟩
  have hne := branchPtdf_ne_one solve hs g hz hreg l hc
  obtain ⟨θ, hθ, hout⟩ := branchPtdf_column solve hs g hz hreg l
  have hbodf : ∀ k : Fin m, bodf solve g (l.succAbove k) l =
      branchPtdf solve g (l.succAbove k) l * (1 / (1 - branchPtdf solve g l l)) := by
    intro k
    simp only [bodf, Fin.succAbove_ne l k, if_false, Matrix.mul_diagonal]
  let c := flows solve g p l / (1 - branchPtdf solve g l l)
  have hcdef : c * (1 - branchPtdf solve g l l) = flows solve g p l := div_mul_cancel₀ _ hne
  have kvl := (lpf_kvl solve g (fun l => (hz l).ne') p).1
  have bal := lpf_balance solve hs g hreg p
  have hz' : ∀ k, 0 < (outage g l).z k := fun k => hz _
  have bal' := lpf_balance solve hs (outage g l) (Bred_regular _ hz' hc) p
  have kvl' := (lpf_kvl solve (outage g l) (fun k => (hz' k).ne') p).1
  -- the new flows on the full network
  let f' : Fin (m + 1) → F := flows solve g p +
    c • ((fun k => branchPtdf solve g k l) + (-1 : F) • Pi.single l 1)
  have hf'l : f' l = 0 := by
    simp only [f', Pi.add_apply, Pi.smul_apply, smul_eq_mul, Pi.single_eq_same]
    linear_combination -hcdef
  have hf'k : ∀ k : Fin m, f' (l.succAbove k) = flows solve g p (l.succAbove k) +
      bodf solve g (l.succAbove k) l * flows solve g p l := by
    intro k
    simp only [f', Pi.add_apply, Pi.smul_apply, smul_eq_mul]
    rw [Pi.single_eq_of_ne (Fin.succAbove_ne l k), hbodf]
    simp only [c]; ring
  have hf'out : ∀ i, outflow g f' i = busP p i := by
    intro i
    simp only [f']
    rw [outflow_add, outflow_smul, outflow_add, outflow_smul, outflow_single, hout, bal.1 i]
    ring
  have hrest : ∀ i, outflow (outage g l) (fun k => f' (l.succAbove k)) i = outflow g f' i := by
    intro i
    simp only [outflow, outage]
    rw [Fin.sum_univ_succAbove _ l, Fin.sum_univ_succAbove (fun k => if g.bus1 k = i then f' k else 0) l,
      hf'l]
    simp only [ite_self, zero_add]
    rfl
  have := flows_unique (outage g l) hz' (fun k => f' (l.succAbove k)) (flows solve (outage g l) p)
    (fun i => vDiff solve g p i + c * θ i) (vDiff solve (outage g l) p) ?_ kvl' ?_
  · intro k
    rw [← hf'k k]
    exact congrFun this k
  · intro k
    simp only [outage, f', Pi.add_apply, Pi.smul_apply, smul_eq_mul]
    rw [Pi.single_eq_of_ne (Fin.succAbove_ne l k)]
    have h1 := kvl (l.succAbove k)
    have h2 := hθ (l.succAbove k)
    linear_combination h1 + c * h2
  · intro i
    rw [hrest, hf'out, bal'.1 i]

end C29

/-! ### Non-vacuity -/

/-- A triangle: buses 0 (slack), 1, 2. -/
def triangle : Grid ℚ 2 3 where
  bus0 := ![0, 1, 0]
  bus1 := ![1, 2, 2]
  z := ![1, 2, 3]
  shift := ![0, 0, 1]

theorem triangle_z : ∀ l, 0 < triangle.z l := by decide

theorem triangle_connected : Connected triangle := by
  intro i
  have h1 : Relation.ReflTransGen (fun x y => ∃ l, (triangle.bus0 l = x ∧ triangle.bus1 l = y) ∨
    (triangle.bus0 l = y ∧ triangle.bus1 l = x)) 0 1 := .single ⟨0, Or.inl ⟨rfl, rfl⟩⟩
  have h2 : Relation.ReflTransGen (fun x y => ∃ l, (triangle.bus0 l = x ∧ triangle.bus1 l = y) ∨
    (triangle.bus0 l = y ∧ triangle.bus1 l = x)) 0 2 := .single ⟨2, Or.inl ⟨rfl, rfl⟩⟩
  match i with
  | 0 => exact .refl
  | 1 => exact h1
  | 2 => exact h2

theorem triangle_outage_connected : Connected (outage triangle 2) := by
  intro i
  have h1 : Relation.ReflTransGen (fun x y => ∃ l, ((outage triangle 2).bus0 l = x ∧ (outage triangle 2).bus1 l = y) ∨
    ((outage triangle 2).bus0 l = y ∧ (outage triangle 2).bus1 l = x)) 0 1 := .single ⟨0, Or.inl ⟨rfl, rfl⟩⟩
  have h2 : Relation.ReflTransGen (fun x y => ∃ l, ((outage triangle 2).bus0 l = x ∧ (outage triangle 2).bus1 l = y) ∨
    ((outage triangle 2).bus0 l = y ∧ (outage triangle 2).bus1 l = x)) 1 2 := .single ⟨1, Or.inl ⟨rfl, rfl⟩⟩
  match i with
  | 0 => exact .refl
  | 1 => exact h1
  | 2 => exact h1.trans h2

/-- The hypotheses of C25-C29 hold for a meshed sub-network with a phase shifter. -/
example : Solves (F := ℚ) (fun _ A b => A⁻¹ *ᵥ b) ∧ (∀ l, 0 < triangle.z l) ∧
    triangle.Bred.det ≠ 0 ∧ Connected triangle ∧ Connected (outage triangle 2) :=
  ⟨solves_inverse, triangle_z, Bred_regular _ triangle_z triangle_connected, triangle_connected,
    triangle_outage_connected⟩

/-- Balanced injections and cycles are not trivial either. -/
example : (∑ i, (![1, 2, -3] : Fin 3 → ℚ) i = 0) ∧
    ∀ i, outflow triangle ![1, 1, -1] i = 0 := by decide +kernel

end Verif.PowerFlow
