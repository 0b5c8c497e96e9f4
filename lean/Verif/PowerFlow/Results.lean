import Verif.PowerFlow.Admittance
import Verif.PowerFlow.Slack
import Verif.PowerFlow.Injection

/-!
# Model of what `n.pf()` writes for the components

`_calculate_controllable_nodal_power_balance` (`pf.py` 75-124), the links in `_network_prepare_and_run_pf` (146-157), the
loop over sub-networks (162-203), `sub_network_pf_singlebus` (320-420) and the end of
`sub_network_pf` (708-820), for one snapshot.  The solver is that of `Admittance.lean`, the shares of generators are
those of `Slack.lean`.  Numbers are real, NaN and infinite dispatch is `none`.
-/

namespace Verif.PowerFlow.Results

open AC

/-- A generator, load, store or storage unit with its set points and the entries of the tables `p` and `q`. -/
structure Port where
  isGen : Bool
  name : Name
  bus : Name
  sign : ℝ
  active : Bool
  pSet : ℝ
  qSet : ℝ
  pNom : ℝ := 0
  pNomOpt : ℝ := 0
  p : Option ℝ
  q : ℝ

/-- A sub-network with `nb + 1` buses after `find_bus_controls` and `calculate_Y`. -/
structure Sub (nb m : Nat) where
  /-- `buses_o` -/
  bus : Fin (nb + 1) → Name
  npv : Nat
  br : Fin m → Branch (nb + 1)
  shunts : List (Shunt (nb + 1))
  vSet : Fin (nb + 1) → ℝ
  slackGen : Option Name
  /-- column `generator` of the buses -/
  pvGen : Fin (nb + 1) → Name
  /-- starting point, and `x - spsolve(dfdx(x), f(x))` -/
  guess : Guess (nb + 1)
  next : Guess (nb + 1) → Guess (nb + 1)

/-- `notFinite`: weights are infinite, the iteration ends with NaN, which is reported as not converged. -/
inductive Err
  | raised (e : Slack.Err)
  | notFinite
deriving DecidableEq

/-- What is written about the branches, shunts and the success of one sub-network. -/
structure Out where
  nb : Nat
  m : Nat
  bus : Fin (nb + 1) → Name
  bus0 : Fin m → Fin (nb + 1)
  bus1 : Fin m → Fin (nb + 1)
  s0 : Fin m → ℂ
  s1 : Fin m → ℂ
  shunts : List (Fin (nb + 1) × ℝ × ℝ)
  busP : Fin (nb + 1) → ℝ
  busQ : Fin (nb + 1) → ℝ
  converged : Bool

noncomputable section

variable {nb m : Nat}

def Sub.buses (S : Sub nb m) : List Name := List.ofFn S.bus

/-- One-ports in service run at their set points (82-95). -/
def setPoint (buses : List Name) (o : Port) : Port :=
  if o.active && decide (o.bus ∈ buses) then { o with p := some o.pSet, q := o.qSet } else o

/-- Active power fed in at a bus (97-124), `groupby().sum()` skips NaN. -/
def feedP (ports : List Port) (links : List (LinkRow ℝ)) (x : Name) : ℝ :=
  ((ports.filter (fun o => o.active && o.bus = x)).map (fun o => o.p.getD 0 * o.sign)).sum +
  (links.map (fun k => - ((k.flows.filter (fun q => q.1 = x)).map (·.2)).sum)).sum

/-- Reactive power fed in at a bus (97-111). -/
def feedQ (ports : List Port) (x : Name) : ℝ :=
  ((ports.filter (fun o => o.active && o.bus = x)).map (fun o => o.q * o.sign)).sum

/-- The arguments of the iteration (670-672). -/
def problem (S : Sub nb m) (ports : List Port) (links : List (LinkRow ℝ)) (w : Option (Fin (nb + 1) → ℝ)) :
    Problem (nb + 1) m :=
  { npv := S.npv, br := S.br, shunts := S.shunts, vSet := S.vSet, weights := w
    s := fun i => ⟨feedP ports links (S.bus i), feedQ ports (S.bus i)⟩ }

def gens (ports : List Port) : List (Slack.Gen ℝ) :=
  (ports.filter (·.isGen)).map (fun o => ⟨o.name, o.bus, o.pNom, o.pNomOpt, o.pSet⟩)

/-- `distributed_slack_power` (773-775) by name of the bus. -/
def slackPower (S : Sub nb m) (P : Problem (nb + 1) m) (gs : Guess (nb + 1)) (b : Name) : ℝ :=
  match (List.finRange (nb + 1)).find? (fun i => S.bus i = b) with
  | some i => busP P gs i - (P.s i).re
  | none => 0

/-- `n.generators_t.p.loc[sns, g] += x`. -/
def addP (g : Name) (x : ℝ) (o : Port) : Port :=
  if o.isGen && o.name = g then { o with p := o.p.map (· + x) } else o

/-- Adjustments of several generators. -/
def addAll (out : List (Slack.Gen ℝ × Option ℝ)) (o : Port) : Port :=
  if o.isGen then
    match out.find? (fun e => e.1.name = o.name) with
    | some e => { o with p := o.p.bind (fun p => e.2.map (p + ·)) }
    | none => o
  else o

/-- Generators take up the slack (771-809); `None` is no column. -/
def finishP (S : Sub nb m) (P : Problem (nb + 1) m) (gs : Guess (nb + 1)) (dist : Option (Slack.Weights ℝ))
    (ports : List Port) : Except Err (List Port) :=
  match dist with
  | none =>
    match S.slackGen with
    | none => .error (.raised .keyError)
    | some g => .ok (ports.map (addP g (busP P gs 0 - (P.s 0).re)))
  | some sw =>
    match Slack.adjustAll sw (gens ports) S.buses (slackPower S P gs) S.buses with
    | .error e => .error (.raised e)
    | .ok out => .ok (ports.map (addAll out))

/-- `q` of the slack generator and of the generators of PV buses (811-818). -/
def addQ (S : Sub nb m) (P : Problem (nb + 1) m) (gs : Guess (nb + 1)) (g : Name) (o : Port) : Port :=
  if o.isGen then
    { o with q := o.q + (if o.name = g then busQ P gs 0 - (P.s 0).im else 0) +
        (((List.finRange (nb + 1)).filter (fun i => decide (0 < i.val ∧ i.val < 1 + S.npv ∧ S.pvGen i = o.name))).map
          (fun i => busQ P gs i - (P.s i).im)).sum }
  else o

def finishQ (S : Sub nb m) (P : Problem (nb + 1) m) (gs : Guess (nb + 1)) (ports : List Port) : Except Err (List Port) :=
  match S.slackGen with
  | none => .error (.raised .keyError)
  | some g => .ok (ports.map (addQ S P gs g))

/-- What is written about the sub-network (708-769). -/
def written (S : Sub nb m) (P : Problem (nb + 1) m) (r : NewtonResult (Guess (nb + 1)) ℝ) : Out :=
  { nb := nb, m := m, bus := S.bus, bus0 := fun l => (S.br l).bus0, bus1 := fun l => (S.br l).bus1
    s0 := s0 P r.root, s1 := s1 P r.root
    shunts := S.shunts.map (fun s => (s.bus, shuntP P r.root s, shuntQ P r.root s))
    busP := busP P r.root, busQ := busQ P r.root, converged := r.converged }

/-- The weights of the buses (614-659, 682-687). -/
def weightsOf (S : Sub nb m) (ports : List Port) (dist : Option (Slack.Weights ℝ)) :
    Except Err (Option (Fin (nb + 1) → ℝ)) :=
  match dist with
  | none => .ok none
  | some sw =>
    match Slack.busWeights sw (gens ports) S.buses with
    | .error e => .error (.raised e)
    | .ok f => if S.buses.all (fun b => (f b).isSome) then .ok (some (fun i => (f (S.bus i)).getD 0)) else .error .notFinite

/-- `sub_network_pf` for a sub-network with at least two buses. -/
def subPf (S : Sub nb m) (dist : Option (Slack.Weights ℝ)) (tol : ℝ) (links : List (LinkRow ℝ)) (ports : List Port) :
    Except Err (Out × List Port) :=
  (weightsOf S ports dist).bind (fun w =>
    let set := ports.map (setPoint S.buses)
    let P := problem S set links w
    let r := solvePF P S.next tol S.guess
    (finishP S P r.root dist set).bind (fun ports1 =>
      (finishQ S P r.root ports1).map (fun ports2 => (written S P r, ports2))))

/-- Dispatch at a single bus (371-411). -/
def singleP (S : Sub 0 m) (dist : Option (Slack.Weights ℝ)) (g : Name) (x : ℝ) (ports : List Port) : Except Err (List Port) :=
  match dist with
  | none => .ok (ports.map (addP g (-x)))
  | some sw =>
    match Slack.singleBus sw (gens ports) ((gens ports).filter (fun o => o.bus = S.bus 0)) (-x) with
    | .error e => .error (.raised e)
    | .ok out => .ok (ports.map (addAll out))

/-- `n.generators_t.q.loc[sns, g] += x`. -/
def addQ1 (g : Name) (x : ℝ) (o : Port) : Port := if o.isGen && o.name = g then { o with q := o.q + x } else o

/-- `sub_network_pf_singlebus` (352-420): shunts are not looked at and nothing is written about them. -/
def singleBusPf (S : Sub 0 m) (dist : Option (Slack.Weights ℝ)) (links : List (LinkRow ℝ)) (ports : List Port) :
    Except Err (Out × List Port) :=
  let set := ports.map (setPoint S.buses)
  match S.slackGen with
  | none => .error (.raised .keyError)
  | some g =>
    (singleP S dist g (feedP set links (S.bus 0)) set).map (fun ports1 => (
      { nb := 0, m := 0, bus := S.bus, bus0 := fun l => l.elim0, bus1 := fun l => l.elim0, s0 := fun _ => 0, s1 := fun _ => 0
        shunts := [], busP := fun _ => 0, busQ := fun _ => 0, converged := true },
      ports1.map (addQ1 g (- feedQ set (S.bus 0)))))

/-- A sub-network with its weights. -/
structure Task where
  nb : Nat
  m : Nat
  sub : Sub nb m
  dist : Option (Slack.Weights ℝ)

/-- The choice between both (181-203). -/
def runSub (t : Task) (tol : ℝ) (links : List (LinkRow ℝ)) (ports : List Port) : Except Err (Out × List Port) :=
  match t with
  | ⟨0, _, S, dist⟩ => singleBusPf S dist links ports
  | ⟨_ + 1, _, S, dist⟩ => subPf S dist tol links ports

/-- The loop over the sub-networks (162-203). -/
def runAll (tol : ℝ) (links : List (LinkRow ℝ)) : List Task → List Port → Except Err (List Out × List Port)
  | [], ports => .ok ([], ports)
  | t :: ts, ports =>
    (runSub t tol links ports).bind (fun r =>
      (runAll tol links ts r.2).map (fun rest => (r.1 :: rest.1, rest.2)))

end

end Verif.PowerFlow.Results
