import Verif.Plot.Maps

/-!
# Model of the branches and flows on a map

`draw_map` in `plot/maps/static.py` (1239-1296) for one class of branches: what the arguments `line_flow`, `link_flow`, `transformer_flow` stand for
(`_flow_ds_from_arg`, 575-612), which branches are drawn (`_dataframe_from_arguments`, 569-573, and `get_branch_collection`, 614-745), and which flows the arrows
are drawn for (1279-1296; the arrows themselves are in `Maps.lean`).  Values are by the name of a branch; the order in which branches are drawn is
not in the model.  NaN is `none`.
-/

namespace Verif.Plot.Flows

variable {F : Type} [Field F] [LinearOrder F]

/-- What a snapshot may be called: a string, a number or a time. -/
inductive Label (F : Type) where
  | str (s : String)
  | num (v : F)
  | time (k : Nat)
  deriving DecidableEq

/-- The argument for flows. -/
inductive Flow (F : Type) where
  | none
  | series (s : List (Name × Option F))
  | label (l : Label F)
  | callable (f : List (Option F) → Option F)
  /-- a dictionary or a list -/
  | unhashable

inductive Err where
  /-- `TypeError` -/
  | type
  /-- `AttributeError` -/
  | attribute
  /-- `ValueError` -/
  | value
  /-- `KeyError` -/
  | key
  deriving DecidableEq

/-- One class of branches: the names in its table and the columns of `p0`, each with one value per snapshot. -/
structure Table (F : Type) where
  names : List Name
  p0 : List (Name × List (Option F))

/-- `_flow_ds_from_arg` (596-612).  `named` are the functions that pandas knows by name.  Line 599 asks first whether the argument is a snapshot, which needs its hash. -/
def flowOf (snapshots : List (Label F)) (named : String → Option (List (Option F) → Option F)) (t : Table F) : Flow F → Except Err (Option (List (Name × Option F)))
  | .none => .ok none
  | .series s => .ok (some s)
  | .unhashable => .error .type
  | .callable f => .ok (some (t.p0.map (fun c => (c.1, f c.2))))
  | .label l =>
    if l ∈ snapshots then .ok (some (t.p0.map (fun c => (c.1, (c.2[snapshots.idxOf l]?).join))))
    else match l with
      | .str s =>
        match named s with
        | some f => .ok (some (t.p0.map (fun c => (c.1, f c.2))))
        | none => .error .attribute
      | .num v => .ok (some (t.names.map (fun b => (b, some v))))
      | .time _ => .error .value

/-- A width: one for all branches or a Series. -/
inductive Width (F : Type) where
  | one (v : F)
  | each (s : List (Name × Option F))

/-- The arguments but the flow; of colours and `alpha` only the index counts, `none` if they are no Series. -/
structure Args (F : Type) where
  widths : Width F
  colors : Option (List Name)
  alpha : Option (List Name)
  /-- `auto_scale_branches` -/
  auto : Bool
  /-- number of branches of all classes drawn (1281-1283) -/
  total : Nat

def Width.index : Width F → Option (List Name)
  | .one _ => none
  | .each s => some (s.map (·.1))

def Width.at : Width F → Name → Option F
  | .one v, _ => some v
  | .each s, b => (s.lookup b).join

/-- The rows of `_dataframe_from_arguments` (569-573): the union of the indices of all Series, or else all branches. -/
def rows (t : Table F) (a : Args F) (flow : Option (List (Name × Option F))) : List Name :=
  match [a.widths.index, a.colors, a.alpha, flow.map (·.map (·.1))].filterMap id with
  | [] => t.names
  | i :: is => ((i :: is).flatten).dedup

/-- `a.mul(b, fill_value=0)`. -/
def mulFill : Option F → Option F → Option F
  | none, none => none
  | x, y => some (x.getD 0 * y.getD 0)

/-- The branches with their widths, and the flows the arrows are drawn for. -/
structure Drawn (F : Type) where
  lines : List (Name × Option F)
  arrows : Option (List (Name × Option F))

/-- The flow of one row (1279-1286). -/
def arrowFlow (a : Args F) (s : List (Name × Option F)) (b : Name) : Option F :=
  if a.auto then (mulFill (s.lookup b).join ((a.widths.at b).map (fun v => |v|))).map (· / ((a.total : F) + 100)) else (s.lookup b).join

/-- One turn of the loop (1239-1296).  Rows that are no branches are a `KeyError` where their buses are looked up (664-669, 704-710). -/
def draw (snapshots : List (Label F)) (named : String → Option (List (Option F) → Option F)) (t : Table F) (a : Args F) (flow : Flow F) : Except Err (Drawn F) :=
  match flowOf snapshots named t flow with
  | .error e => .error e
  | .ok f =>
    let idx := rows t a f
    if idx.isEmpty then .ok ⟨[], none⟩
    else if idx.any (fun b => decide (b ∉ t.names)) then .error .key
    else .ok ⟨idx.map (fun b => (b, a.widths.at b)), f.map (fun s => idx.map (fun b => (b, arrowFlow a s b)))⟩

end Verif.Plot.Flows
