import Mathlib.Data.List.Basic

/-!
# Groupers of the statistics: registry, subscript, ways to ask (model)

`pypsa/statistics/grouping.py` (the class `Groupers`, its one instance `groupers`, the old `get_...` functions) and
`AbstractStatisticsAccessor._get_grouping` (`pypsa/statistics/abstract.py` 136-156).  What is done with the labels is in `Aggregate.lean`.

Simplified: tables hold strings or missing values; a function is what it returns and whether it has the parameters `port` and `nice_names`; own groupers
are not called like an internal method (`_multi_grouper`, `_get_generic_grouper`, `__...__`), which they would replace.
-/

namespace Verif.Stats.Groupers

/-- What can be raised. -/
inductive Err
  | type
  | value
  | key (col : String)
  | attribute (name : String)
  | other (msg : String)
deriving DecidableEq, Repr

/-- A series of labels, one for each component, with its name. -/
structure Ser where
  name : String
  vals : List (Option String)
deriving DecidableEq, Repr

/-- `n.static(c)`: index and columns; `n.carriers.nice_name` (empty if there is none). -/
structure Net where
  index : String → List String
  col : String → String → Option (List (Option String))
  nice : String → String

/-- A grouper: has it got these parameters, and what comes back for given or missing values. -/
structure Func where
  takesPort : Bool
  takesNice : Bool
  body : Net → String → Option (Option String) → Option Bool → Except Err Ser

/-- A call with keyword arguments; a keyword the function does not know is a `TypeError`. -/
def Func.call (f : Func) (n : Net) (c : String) (port : Option (Option String)) (nice : Option Bool) : Except Err Ser :=
  if (port.isSome && !f.takesPort) || (nice.isSome && !f.takesNice) then .error .type else f.body n c port nice

/-- The attributes users have set on `groupers`. -/
abbrev Registry := List (String × Func)

def own (R : Registry) (name : String) : Option Func := (R.find? (fun e => e.1 == name)).map (·.2)

/-- `add_grouper` (179-204).  An attribute of that name hides the method: nothing is registered any more. -/
def add (R : Registry) (name : String) (f : Func) : Registry :=
  if (own R "add_grouper").isSome then R else (name, f) :: R.filter (fun e => e.1 != name)

/-! ## The groupers of the class (206-366) -/

/-- `f"bus{port}"`; the default is the empty string, `None` gives `busNone`. -/
def busCol (port : Option (Option String)) : String := "bus" ++ (port.getD (some "")).getD "None"

/-- Nice names where there are some, and `-` for none (226-231). -/
def niceLabel (n : Net) (x : String) : String :=
  let y := if n.nice x = "" then x else n.nice x
  if y = "" then "-" else y

/-- `carrier` (206-232). -/
def carrierFn : Func where
  takesPort := false
  takesNice := true
  body n c _ nice :=
    let vals := (n.col c "carrier").getD ((n.index c).map (fun _ => some ""))
    .ok ⟨"carrier", if nice.getD true then vals.map (·.map (niceLabel n)) else vals⟩

/-- `self.carrier`. -/
def selfCarrier (R : Registry) : Func := (own R "carrier").getD carrierFn

/-- `series.map(other)`: by the index of buses. -/
def mapBus (n : Net) (labels : List (Option String)) (b : Option String) : Option String :=
  b.bind (fun b => (labels[(n.index "Bus").idxOf b]?).join)

/-- `bus_carrier` (234-259). -/
def busCarrierFn (R : Registry) : Func where
  takesPort := true
  takesNice := true
  body n c port nice :=
    match (selfCarrier R).call n "Bus" none (some (nice.getD true)) with
    | .error e => .error e
    | .ok s => match n.col c (busCol port) with
      | none => .error (.key (busCol port))
      | some bs => .ok ⟨"bus_carrier", bs.map (mapBus n s.vals)⟩

/-- `bus` (261-281). -/
def busFn : Func where
  takesPort := true
  takesNice := false
  body n c port _ := match n.col c (busCol port) with
    | none => .error (.key (busCol port))
    | some bs => .ok ⟨"bus", bs⟩

/-- `country` (283-303), `location` (305-325) and `unit` (327-347). -/
def busAttrFn (attr : String) : Func where
  takesPort := true
  takesNice := false
  body n c port _ := match n.col c (busCol port) with
    | none => .error (.key (busCol port))
    | some bs => match n.col "Bus" attr with
      | none => .error (.attribute attr)
      | some ls => .ok ⟨attr, bs.map (mapBus n ls)⟩

/-- `name` (349-366). -/
def nameFn : Func where
  takesPort := false
  takesNice := false
  body n c _ _ := .ok ⟨"name", (n.index c).map some⟩

def method (R : Registry) (key : String) : Option Func :=
  if key = "carrier" then some carrierFn
  else if key = "bus_carrier" then some (busCarrierFn R)
  else if key = "bus" then some busFn
  else if key = "country" then some (busAttrFn "country")
  else if key = "location" then some (busAttrFn "location")
  else if key = "unit" then some (busAttrFn "unit")
  else if key = "name" then some nameFn
  else none

/-- `getattr(groupers, key)` for functions that can be used as groupers: attributes of the instance come first. -/
def attr (R : Registry) (key : String) : Option Func := (own R key).or (method R key)

/-- `key in self.list_groupers()` (98-116). -/
def listed (R : Registry) (key : String) : Bool :=
  (attr R key).isSome && !key.startsWith "_" && !(["add_grouper", "list_groupers"].contains key)

/-! ## The subscript (118-177) -/

inductive Key
  | str (s : String)
  | fn (f : Func)

inductive Keys
  | one (k : Key)
  | many (ks : List Key)

/-- One series, or a list of them. -/
inductive By
  | ser (s : Ser)
  | list (l : List Ser)
deriving DecidableEq, Repr

/-- Arguments are passed as far as the function has parameters for them (168-173). -/
def fitted (f : Func) (n : Net) (c : String) (port : Option String) (nice : Bool) : Except Err Ser :=
  f.call n c (if f.takesPort then some port else none) (if f.takesNice then some nice else none)

/-- `_get_generic_grouper` (91-96). -/
def generic (n : Net) (c key : String) : Except Err Ser :=
  match n.col c key with
  | none => .error .value
  | some vs => .ok ⟨key, vs⟩

/-- One key (159-173).  An own grouper called `list_groupers` is called without arguments. -/
def one (R : Registry) (n : Net) (c : String) (port : Option String) (nice : Bool) : Key → Except Err Ser
  | .str s =>
    if (own R "list_groupers").isSome then .error .type
    else if listed R s then
      match attr R s with
      | some f => fitted f n c port nice
      | none => .error (.attribute s)
    else generic n c s
  | .fn f => fitted f n c port nice

/-- The keys one after the other. -/
def each (R : Registry) (n : Net) (c : String) (port : Option String) (nice : Bool) : List Key → Except Err (List Ser)
  | [] => .ok []
  | k :: ks => match one R n c port nice k with
    | .error e => .error e
    | .ok s => match each R n c port nice ks with
      | .error e => .error e
      | .ok l => .ok (s :: l)

/-- `groupers[keys](n, c, port, nice_names)` (148-177). -/
def multi (R : Registry) (n : Net) (c : String) (port : Option String) (nice : Bool) : Keys → Except Err By
  | .one k => match one R n c port nice k with
    | .error e => .error e
    | .ok s => .ok (.ser s)
  | .many ks => match each R n c port nice ks with
    | .error e => .error e
    | .ok l => .ok (.list l)

/-! ## The argument `groupby` -/

/-- Something that can be called with a network and a class. -/
structure Callee where
  takesPort : Bool
  takesNice : Bool
  body : Net → String → Option (Option String) → Option Bool → Except Err By

def Callee.call (f : Callee) (n : Net) (c : String) (port : Option (Option String)) (nice : Option Bool) : Except Err By :=
  if (port.isSome && !f.takesPort) || (nice.isSome && !f.takesNice) then .error .type else f.body n c port nice

def Func.callee (f : Func) : Callee where
  takesPort := f.takesPort
  takesNice := f.takesNice
  body n c port nice := match f.body n c port nice with
    | .error e => .error e
    | .ok s => .ok (.ser s)

/-- `groupers[keys]`, with its defaults `port=""` and `nice_names=False` (155-157). -/
def subscript (R : Registry) (ks : Keys) : Callee where
  takesPort := true
  takesNice := true
  body n c port nice := multi R n c (port.getD (some "")) (nice.getD false) ks

/-- `groupers.name` -/
def dot (R : Registry) (name : String) : Option Callee := (attr R name).map Func.callee

inductive GroupBy
  | callable (f : Callee)
  | str (s : String)
  | list (ks : List Key)
  | tuple (ks : List Key)
  | no

/-- `_get_grouping` (abstract.py 136-156): `by`. -/
def grouping (R : Registry) (n : Net) (c : String) (port : Option String) (nice : Bool) : GroupBy → Except Err (Option By)
  | .callable f =>
    match f.call n c (some port) (some nice) with
    | .ok b => .ok (some b)
    | .error .type => match f.call n c none (some nice) with
      | .ok b => .ok (some b)
      | .error e => .error e
    | .error e => .error e
  | .str s => match multi R n c port nice (.one (.str s)) with
    | .ok b => .ok (some b)
    | .error e => .error e
  | .list ks => match multi R n c port nice (.many ks) with
    | .ok b => .ok (some b)
    | .error e => .error e
  | .tuple _ => .error .value
  | .no => .ok none

/-- The old functions with one grouper (427-478) … -/
def oldOne : List (String × String) := [("get_carrier", "carrier"), ("get_bus_carrier", "bus_carrier"), ("get_bus", "bus"), ("get_country", "country"),
  ("get_unit", "unit"), ("get_name", "name")]

/-- … and with several (481-532). -/
def oldMany : List (String × List String) := [("get_bus_and_carrier", ["bus", "carrier"]), ("get_bus_unit_and_carrier", ["bus", "unit", "carrier"]),
  ("get_name_bus_and_carrier", ["name", "bus", "carrier"]), ("get_country_and_carrier", ["country", "carrier"]),
  ("get_bus_and_carrier_and_bus_carrier", ["bus", "carrier", "bus_carrier"]), ("get_carrier_and_bus_carrier", ["carrier", "bus_carrier"])]

/-- `n.statistics.groupers.get_...`, `pypsa.statistics.get_...`: everything is passed on to the new one. -/
def old (R : Registry) (name : String) : Option Callee :=
  match oldOne.lookup name with
  | some k => dot R k
  | none => (oldMany.lookup name).map (fun ks => subscript R (.many (ks.map .str)))

end Verif.Stats.Groupers
