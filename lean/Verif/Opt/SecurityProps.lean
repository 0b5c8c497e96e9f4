import Verif.Opt.Security
import Verif.Opt.AccessorProps
import Verif.PowerFlow.LinearProps

/-!
# Security constrained optimisation (C62)
-/

namespace Verif.Opt.Security

open Verif.Opt.Accessor

variable {κ F : Type} [DecidableEq κ] [Field F] [LinearOrder F] [IsStrictOrderedRing F]

/-- Capacity of a branch in a solution. -/
def ratingOf (b : SBranch κ F) (val : SVar' κ → F) : F :=
  b.asset.maxPu * if b.asset.ext then val (.cap b.key) else b.asset.nom

omit [LinearOrder F] [IsStrictOrderedRing F] [DecidableEq κ] in
theorem lin_ofBVar (k : κ) (val : SVar' κ → F) (ts : List (F × BVar)) :
    lin val (ts.map (fun e => (e.1, ofBVar k e.2))) = lin (fun v => val (ofBVar k v)) ts := by
  induction ts with
  | nil => rfl
  | cons e t ih => simp [ih]

/-- One branch after one outage. -/
theorem security_row (losses : Bool) (b : SBranch κ F) (hc : b.cls = .line ∨ b.cls = .transformer) (ha : b.asset.active = true)
    (c : F) (l : κ) (val : SVar' κ → F) :
    Feasible val ((template losses b).map (fun r => { r with terms := r.terms ++ [(c, .flow l)] })) ↔
      |val (.flow b.key) + c * val (.flow l)| + (if losses then val (.loss b.key) else 0) ≤ ratingOf b val := by
  have h := (branch_rating b.cls hc .s losses b.asset ha
    (fun v => match v with
      | .x => val (.flow b.key) + c * val (.flow l)
      | .loss => val (.loss b.key)
      | .cap => val (.cap b.key))).1
  have hr : ratingOf b val = b.asset.maxPu * capacity b.asset (fun v => match v with
      | .x => val (.flow b.key) + c * val (.flow l)
      | .loss => val (.loss b.key)
      | .cap => val (.cap b.key)) := by
    unfold ratingOf capacity; rfl
  rw [hr]
  refine Iff.trans ?_ h
  unfold template opRows fixRows extRows lossTm
  cases he : b.asset.ext <;> cases hl : (passive b.cls && losses) <;>
    simp only [ha, List.map_append, List.map_cons, List.map_nil, feasible_append, feasible_cons, feasible_nil, Con.holds,
      lin_append, lin_cons, lin_nil, Bool.or_false, Bool.or_true, Bool.not_true, Bool.not_false, Bool.false_eq_true, if_true,
      if_false, and_true, true_and, ofBVar] <;>
    constructor <;> rintro ⟨h1, h2⟩ <;> constructor <;> linarith

omit [IsStrictOrderedRing F] in
/-- The rows exist only if the branches next to an outage are in service. -/
theorem addSecurity_ok (losses : Bool) (branches : List (SBranch κ F)) (bodf : κ → κ → F) (outages : List κ)
    (rows : List (Con (SVar' κ) F)) (h : addSecurity losses branches bodf outages = .ok rows) :
    rows = securityRows losses branches bodf outages ∧
      ∀ l ∈ branches, l.key ∈ outages → ∀ k ∈ branches, k.sub = l.sub → k.asset.active = true := by
  unfold addSecurity at h
  split at h
  · simp at h
  · next hn =>
    refine ⟨(Except.ok.inj h).symm, fun l hl ho k hk hs => ?_⟩
    by_contra ha
    apply hn
    rw [List.any_eq_true]
    refine ⟨l, hl, ?_⟩
    rw [Bool.and_eq_true, List.any_eq_true]
    exact ⟨by simpa using ho, k, hk, by simp [hs, ha]⟩

/-- C62: the added rows hold exactly if for every listed outage and every branch of the same sub-network the
flow afterwards (with losses, if modelled) is within the rating. -/
theorem security_rows (losses : Bool) (branches : List (SBranch κ F)) (bodf : κ → κ → F) (outages : List κ)
    (hb : ∀ b ∈ branches, b.cls = .line ∨ b.cls = .transformer)
    (rows : List (Con (SVar' κ) F)) (hr : addSecurity losses branches bodf outages = .ok rows) (val : SVar' κ → F) :
    Feasible val rows ↔
      ∀ l ∈ branches, l.key ∈ outages → ∀ k ∈ branches, k.sub = l.sub →
        |val (.flow k.key) + bodf k.key l.key * val (.flow l.key)| + (if losses then val (.loss k.key) else 0) ≤
          ratingOf k val := by
  obtain ⟨rfl, ha⟩ := addSecurity_ok losses branches bodf outages rows hr
  unfold securityRows
  rw [feasible_flatMap]
  constructor
  · intro h l hl ho k hk hs
    have h1 := h l (List.mem_filter.mpr ⟨hl, by simpa using ho⟩)
    rw [feasible_flatMap] at h1
    have h2 := h1 k (List.mem_filter.mpr ⟨hk, by simpa using hs⟩)
    exact (security_row losses k (hb k hk) (ha l hl ho k hk hs) _ _ val).mp h2
  · intro h l hl
    obtain ⟨hl, ho⟩ := List.mem_filter.mp hl
    have ho : l.key ∈ outages := by simpa using ho
    rw [feasible_flatMap]
    intro k hk
    obtain ⟨hk, hs⟩ := List.mem_filter.mp hk
    have hs : k.sub = l.sub := by simpa using hs
    exact (security_row losses k (hb k hk) (ha l hl ho k hk hs) _ _ val).mpr (h l hl ho k hk hs)

/-- C62: it succeeds if the branches of all sub-networks are in service. -/
theorem security_exists (losses : Bool) (branches : List (SBranch κ F)) (bodf : κ → κ → F) (outages : List κ)
    (ha : ∀ b ∈ branches, b.asset.active = true) : ∃ rows, addSecurity losses branches bodf outages = .ok rows := by
  refine ⟨_, if_neg ?_⟩
  rw [List.any_eq_true]
  rintro ⟨l, _, h⟩
  rw [Bool.and_eq_true, List.any_eq_true] at h
  obtain ⟨_, k, hk, h⟩ := h
  simp [ha k hk] at h

/-- **Finding** (abstract.py 428-431): a branch out of service in the sub-network of an outage makes it raise. -/
theorem inactive_branch_raises (losses : Bool) (branches : List (SBranch κ F)) (bodf : κ → κ → F) (outages : List κ)
    (l k : SBranch κ F) (hl : l ∈ branches) (ho : l.key ∈ outages) (hk : k ∈ branches) (hs : k.sub = l.sub)
    (ha : k.asset.active = false) : addSecurity losses branches bodf outages = .error () := by
  refine if_pos ?_
  rw [List.any_eq_true]
  refine ⟨l, hl, ?_⟩
  rw [Bool.and_eq_true, List.any_eq_true]
  exact ⟨by simpa using ho, k, hk, by simp [hs, ha]⟩

/-- C62: for a connected network whose optimised flows are those of the linear power flow: if the rows for an
outage hold and the network stays connected, then no branch of the network without the branch is overloaded in its
linear power flow. -/
theorem security_covers {n m : Nat} (solve : PowerFlow.Solve F) (hs : PowerFlow.Solves solve)
    (g : PowerFlow.Grid F n (m + 1)) (hz : ∀ l, 0 < g.z l) (hreg : g.Bred.det ≠ 0)
    (p : Fin (n + 1) → F) (branches : List (SBranch (Fin (m + 1)) F))
    (hb : ∀ b ∈ branches, (b.cls = .line ∨ b.cls = .transformer) ∧ b.sub = 0)
    (hall : ∀ k, ∃ b ∈ branches, b.key = k) (outages : List (Fin (m + 1))) (val : SVar' (Fin (m + 1)) → F)
    (hflow : ∀ k, val (.flow k) = PowerFlow.flows solve g p k)
    (rows : List (Con (SVar' (Fin (m + 1))) F))
    (hr : addSecurity false branches (fun k l => PowerFlow.bodf solve g k l) outages = .ok rows) (hfeas : Feasible val rows)
    (l : Fin (m + 1)) (hl : l ∈ outages) (hc : PowerFlow.Connected (PowerFlow.outage g l)) :
    ∀ k : Fin m, ∀ b ∈ branches, b.key = l.succAbove k →
      |PowerFlow.flows solve (PowerFlow.outage g l) p k| ≤ ratingOf b val := by
  intro k b hbm hk
  have h := (security_rows false branches _ outages (fun b hb' => (hb b hb').1) rows hr val).mp hfeas
  obtain ⟨bl, hbl, hkl⟩ := hall l
  have := h bl hbl (hkl ▸ hl) b hbm (by rw [(hb b hbm).2, (hb bl hbl).2])
  rw [hk, hkl, hflow, hflow, (PowerFlow.bodf_exact solve hs g hz hreg l hc p).1 k] at this
  simpa using this

/-- C62: the outages considered: all passive branches by default, the given lines otherwise; unknown lines raise. -/
theorem resolve_lines (branches : List Key) :
    resolve branches .all = .ok branches ∧
    (∀ names, (∀ n ∈ names, ("Line", n) ∈ branches) → resolve branches (.lines names) = .ok (names.map (fun n => ("Line", n)))) ∧
    (∀ names, (∃ n ∈ names, ("Line", n) ∉ branches) → resolve branches (.lines names) = .error ()) := by
  refine ⟨rfl, ?_, ?_⟩
  · intro names h
    simp only [resolve]
    rw [if_neg]
    rw [List.any_eq_true]
    rintro ⟨n, hn, h'⟩
    simp [h n hn] at h'
  · rintro names ⟨n, hn, h⟩
    have : names.any (fun n => !branches.contains ("Line", n)) = true := List.any_eq_true.mpr ⟨n, hn, by simpa using h⟩
    simp only [resolve]
    rw [if_pos this]

/-- **Finding** (abstract.py 395-396): an index of pairs, as the documentation describes, always raises. -/
theorem pairs_raise (branches : List Key) (k : Key) (ks : List Key) : resolve branches (.pairs (k :: ks)) = .error () := rfl

/-- Two parallel lines that share 10 MW equally, each rated 10 MW: secure; rated 9 MW: not. -/
example : let br : ℚ → List (SBranch Nat ℚ) := fun r => [⟨0, .line, 0, ⟨true, false, r, 0, 1, 0⟩⟩, ⟨1, .line, 0, ⟨true, false, r, 0, 1, 0⟩⟩]
    let bodf : Nat → Nat → ℚ := fun k l => if k = l then -1 else 1
    (∃ rows, addSecurity false (br 10) bodf [0, 1] = .ok rows ∧ Feasible (fun v => match v with | .flow _ => 5 | _ => 0) rows) ∧
    (∃ rows, addSecurity false (br 9) bodf [0, 1] = .ok rows ∧ ¬ Feasible (fun v => match v with | .flow _ => 5 | _ => 0) rows) := by
  exact ⟨⟨_, rfl, by decide +kernel⟩, ⟨_, rfl, by decide +kernel⟩⟩

end Verif.Opt.Security
