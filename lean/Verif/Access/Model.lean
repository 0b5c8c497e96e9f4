import Verif.Py.Dict

/-!
# Ways to the components of a network (`pypsa/definitions/components.py`, `structures.py`, `pypsa/networks.py`)

`n.components` is a dictionary with additions; its values are objects that hold the tables of a class, and there are several ways to
reach them.  Objects are references into a heap, so that what is changed through one way can be seen through another.

Simplified: the tables are opaque values `D`; of the warnings of deprecated ways nothing is modelled.  Which names are attributes of
the class itself (`keys`, `items`, ...) is Python's and a parameter.
-/

namespace Verif.Access

/-- `COMPONENT_ALIAS_DICT` (`pypsa/deprecations.py` 1-17). -/
def aliases : Dict String String :=
  [("SubNetwork", "sub_networks"), ("Bus", "buses"), ("Carrier", "carriers"), ("GlobalConstraint", "global_constraints"), ("Line", "lines"),
   ("LineType", "line_types"), ("Transformer", "transformers"), ("TransformerType", "transformer_types"), ("Link", "links"), ("Load", "loads"),
   ("Generator", "generators"), ("StorageUnit", "storage_units"), ("Store", "stores"), ("ShuntImpedance", "shunt_impedances"), ("Shape", "shapes")]

/-- The table of classes (`pypsa/data/components.csv`), name and list name. -/
def classes : List (String × String) :=
  [("SubNetwork", "sub_networks"), ("Bus", "buses"), ("Carrier", "carriers"), ("GlobalConstraint", "global_constraints"), ("Line", "lines"),
   ("LineType", "line_types"), ("Transformer", "transformers"), ("TransformerType", "transformer_types"), ("Link", "links"), ("Load", "loads"),
   ("Generator", "generators"), ("StorageUnit", "storage_units"), ("Store", "stores"), ("ShuntImpedance", "shunt_impedances"), ("Shape", "shapes")]

/-- A `Components` object (`components/abstract.py` 36-63, 117): name and list name of its type, the network it is attached to, tables. -/
structure Comp (D : Type) where
  name : String
  listName : String
  net : Option Nat
  defaults : D
  static : D
  dynamic : D

/-- The dictionary of a network and the objects. -/
structure State (D : Type) where
  store : Dict String Nat
  heap : Nat → Comp D

inductive Err where
  | key | attribute | value | type | deprecation
deriving DecidableEq, Repr

variable {D : Type}

/-- `n.components[item]` for a name (`definitions/components.py` 127-141). -/
def getItem (s : State D) (item : String) : Except Err Nat :=
  let key := match Dict.get? aliases item with
    | some l => l
    | none => item
  match Dict.get? s.store key with
  | some r => .ok r
  | none => .error .key

/-- `n.components[[...]]` (125-126). -/
def getItems (s : State D) : List String → Except Err (List Nat)
  | [] => .ok []
  | k :: ks => match getItem s k with
    | .error e => .error e
    | .ok r => match getItems s ks with
      | .error e => .error e
      | .ok rs => .ok (r :: rs)

/-- What an attribute is: one of the class itself, or a value. -/
inductive Attr (V : Type) where
  | method (name : String)
  | val (v : V)
deriving DecidableEq, Repr

/-- `n.components.name`: Python asks for attributes of the class first, and for `__getattr__` (143-159) then. -/
def getAttr (cls : String → Bool) (s : State D) (name : String) : Except Err (Attr Nat) :=
  if cls name then .ok (.method name)
  else match getItem s name with
    | .ok r => .ok (.val r)
    | .error _ => .error .attribute

/-- `n.components.get(name)`: that of dictionaries. -/
def dictGet (s : State D) (name : String) : Option Nat := Dict.get? s.store name

/-- `n.components[name] = value`: that of dictionaries. -/
def setItem (s : State D) (name : String) (r : Nat) : State D := { s with store := Dict.set s.store name r }

/-- `n.components.name = value` (90-94). -/
def setAttr (cls : String → Bool) (s : State D) (name : String) (r : Nat) : Except Err (State D) :=
  if cls name then .error .attribute else .ok (setItem s name r)

/-- `del n.components.name` (161-165), `del n.components[name]`. -/
def delItem (s : State D) (name : String) : Except Err (State D) :=
  if Dict.contains s.store name then .ok { s with store := Dict.erase s.store name } else .error .key

/-- `name in n.components` (194-205). -/
def contains (_s : State D) (_name : String) : Except Err Bool := .error .deprecation

/-- `for c in n.components` (179-192). -/
def iter (s : State D) : List Nat := s.store.map (·.2)

/-- What is passed to `as_components`. -/
inductive Value where
  | str (name : String)
  | comp (r : Nat)
  | other
deriving DecidableEq, Repr

/-- `as_components(n, value)` (`components/common.py` 14-46) for the network `me`. -/
def asComponents (cls : String → Bool) (s : State D) (me : Nat) : Value → Except Err (Attr Nat)
  | .str v =>
    let v' := match Dict.get? aliases v with
      | some l => l
      | none => v
    getAttr cls s v'
  | .comp r => match (s.heap r).net with
    | none => .error .value
    | some m => if m = me then .ok (.val r) else .error .value
  | .other => .error .type

/-- Which table. -/
inductive Table where
  | static | dynamic
deriving DecidableEq, Repr

/-- `component.get("static")` and `component.static` (`components/abstract.py` 508-530). -/
def table (c : Comp D) : Table → D
  | .static => c.static
  | .dynamic => c.dynamic

def putTable (c : Comp D) (t : Table) (d : D) : Comp D :=
  match t with
  | .static => { c with static := d }
  | .dynamic => { c with dynamic := d }

/-- `component.static = d` for an object. -/
def write (s : State D) (r : Nat) (t : Table) (d : D) : State D :=
  { s with heap := fun q => if q = r then putTable (s.heap q) t d else s.heap q }

/-- Getter of `n.generators` and `n.generators_t` (`networks.py` 108-110); `None` has no `get`. -/
def getProperty (s : State D) (l : String) (t : Table) : Except Err D :=
  match dictGet s l with
  | some r => .ok (table (s.heap r) t)
  | none => .error .attribute

/-- Setter of `n.generators` and `n.generators_t` (112-113). -/
def setProperty (s : State D) (l : String) (t : Table) (d : D) : Except Err (State D) :=
  match getItem s l with
  | .ok r => .ok (write s r t d)
  | .error e => .error e

/-- `n.static(name)`, `n.dynamic(name)`, and `n.df(name)`, `n.pnl(name)` (`networks.py` 535-607). -/
def staticOf (s : State D) (name : String) (t : Table) : Except Err D :=
  match getItem s name with
  | .ok r => .ok (table (s.heap r) t)
  | .error e => .error e

/-- `n.component_attrs` (609-627). -/
def componentAttrs (s : State D) : Dict String D := (iter s).foldl (fun d r => Dict.set d (s.heap r).name (s.heap r).defaults) []

/-- `_initialize_components` (488-506): an object for each class; `fresh` are its tables, by name of the class. -/
def initLoop (me : Nat) (fresh : String → D × D × D) : Nat → List (String × String) → State D → State D
  | _, [], s => s
  | r, (c, l) :: cs, s => initLoop me fresh (r + 1) cs
      ⟨Dict.set s.store l r, fun q => if q = r then ⟨c, l, some me, (fresh c).1, (fresh c).2.1, (fresh c).2.2⟩ else s.heap q⟩

def init (me : Nat) (fresh : String → D × D × D) (heap : Nat → Comp D) (next : Nat) : State D := initLoop me fresh next classes ⟨[], heap⟩

/-! ## Dictionaries with attributes (`definitions/structures.py` 14-61) -/

variable {V : Type}

/-- `d.name = value` (22-28). -/
def Box.setAttr (cls : String → Bool) (d : Dict String V) (name : String) (v : V) : Except Err (Dict String V) :=
  if cls name then .error .attribute else .ok (Dict.set d name v)

/-- `d.name` (30-34). -/
def Box.getAttr (cls : String → Bool) (d : Dict String V) (name : String) : Except Err (Attr V) :=
  if cls name then .ok (.method name)
  else match Dict.get? d name with
    | some v => .ok (.val v)
    | none => .error .attribute

/-- `del d.name` (36-40). -/
def Box.delAttr (d : Dict String V) (name : String) : Except Err (Dict String V) :=
  if Dict.contains d name then .ok (Dict.erase d name) else .error .key

/-! ## Types of components -/

/-- `ComponentType` (`definitions/components.py` 19-48). -/
structure CType (T : Type) where
  name : String
  listName : String
  description : String
  /-- missing for some classes -/
  category : Option String
  defaults : T
  standardTypes : Option T

/-- `str(self.category)` -/
def categoryText : Option String → String
  | some c => c
  | none => "nan"

/-- `ComponentType.__eq__` (50-60); `equal` is that of tables. -/
def CType.eq {T : Type} (equal : T → T → Bool) (a b : CType T) : Bool :=
  a.name == b.name && a.listName == b.listName && a.description == b.description && categoryText a.category == categoryText b.category &&
    equal a.defaults b.defaults

end Verif.Access
