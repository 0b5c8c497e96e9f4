import Mathlib.Algebra.Field.Defs

/-!
# Model of `assign_duals`

`optimization/optimize.py` 388-444, `set_from_frame` (`optimization/common.py` 38-47).  Names of constraints are lists of
the parts between dashes.  A table without a column reads as 0 there: new columns are filled with zeros.
-/

namespace Verif.Opt.Duals

abbrev Name := String

/-- A constraint of the model with its duals; `dual` is `none` where the row is masked. -/
structure DualCon (F : Type) where
  name : List Name
  /-- has the dimension `snapshot` -/
  timed : Bool
  cols : List Name
  dual : Name → Nat → Option F
  scalar : F

/-- Columns that duals are written to; `mu s` is `"mu_" + s`. -/
inductive Attr
  | price
  | mu (spec : Name)
deriving DecidableEq, Repr

structure Net (F : Type) where
  classes : List Name
  /-- columns of the static tables, as far as they begin with `mu_` -/
  static : Name → List Attr
  series : Name → Attr → Name → Nat → F
  /-- index and `mu` of the global constraints -/
  globals : List (Name × Option F)

variable {F : Type} [Zero F]

/-- `set_from_frame`: masked entries become 0. -/
def setFrame (n : Net F) (sns : List Nat) (c : Name) (a : Attr) (k : DualCon F) : Net F :=
  { n with series := fun c' a' col t =>
      if c' = c ∧ a' = a ∧ col ∈ k.cols ∧ t ∈ sns then (k.dual col t).getD 0 else n.series c' a' col t }

/-- `attr.endswith("nodal_balance")` -/
def isBalance (spec : Name) : Bool := "nodal_balance".toList.isSuffixOf spec.toList

/-- The rest of a name after its first part. -/
def joined (parts : List Name) : Name := "-".intercalate parts

/-- `n.static(c).loc[attr, "mu"] = dual`: a missing row is added. -/
def setGlobal (g : List (Name × Option F)) (name : Name) (x : F) : List (Name × Option F) :=
  if name ∈ g.map (·.1) then g.map (fun e => if e.1 = name then (name, some x) else e) else g ++ [(name, some x)]

/-- One round of the loop (408-438). -/
def step (all : Bool) (sns : List Nat) (n : Net F) (k : DualCon F) : Net F :=
  match k.name with
  | c :: s :: r =>
    if k.timed then
      if c ∈ n.classes then
        if isBalance ((s :: r).getLast (by simp)) then setFrame n sns c .price k
        else if all || decide (Attr.mu ((s :: r).getLast (by simp)) ∈ n.static c) then
          setFrame n sns c (.mu ((s :: r).getLast (by simp))) k
        else n
      else n
    else if c = "GlobalConstraint" && (all || decide (joined (s :: r) ∈ n.globals.map (·.1))) then
      { n with globals := setGlobal n.globals (joined (s :: r)) k.scalar }
    else n
  | _ => n

/-- `assign_duals`; `available` if some constraint has duals. -/
def assignDuals (available all : Bool) (sns : List Nat) (n : Net F) (cons : List (DualCon F)) : Net F :=
  if available then cons.foldl (step all sns) n else n

/-! ## Names of the limits -/

structure Asset where
  name : Name
  ext : Bool
  com : Bool

/-- Two limits of some assets (`constraints.py` 78-83, 124-129, 198-202); none if there are no such assets. -/
def pair (c kind attr : Name) (assets : List Asset) (d : Name → Name → Name → Nat → Option F) : List (DualCon F) :=
  if assets = [] then []
  else [⟨[c, kind, attr, "lower"], true, assets.map (·.name), fun a t => d attr "lower" a t, 0⟩,
    ⟨[c, kind, attr, "upper"], true, assets.map (·.name), fun a t => d attr "upper" a t, 0⟩]

/-- Limits of operation of one class in the order in which `create_model` adds them (266-277), with other constraints
`more` of the same attribute. -/
def limitCons (c : Name) (attrs : List Name) (assets : List Asset) (d : Name → Name → Name → Nat → Option F)
    (more : Name → List (DualCon F)) : List (DualCon F) :=
  attrs.flatMap (fun attr => pair c "fix" attr (assets.filter (fun a => !a.ext && !a.com)) d ++
    pair c "ext" attr (assets.filter (fun a => a.ext)) d ++
    pair c "com" attr (assets.filter (fun a => a.com)) d ++ more attr)

end Verif.Opt.Duals
