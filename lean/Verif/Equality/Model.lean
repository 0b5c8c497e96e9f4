import Mathlib.Algebra.Order.Ring.Rat
import Mathlib.Algebra.Order.AbsoluteValue.Basic
import Mathlib.Algebra.Order.Group.Abs

/-!
# Model of the equality checks

`common.equals` (`common.py` 180-305), `Components.equals` (`components/abstract.py` 235-278)
and `Network.equals` (`networks.py` 394-459) in `log_mode="silent"`.

Objects are trees with leaves `bool`, `int`, `float` (`none` is NaN), `str` and numeric
data frames; inner nodes are lists/tuples and dictionaries with string keys.  Not modelled:
numpy arrays, `Series`, `Index`, ignored accessor classes (they always compare equal).
`ComponentsStore` compares like a dictionary, and a `Components` object like the
dictionary of its `ctype`, `static` and `dynamic`.  Floats are rationals.
-/

namespace Verif.Equality

/-- A numeric `pd.DataFrame`; `none` cells are NaN. -/
structure Table where
  index : List String
  columns : List String
  cells : List (List (Option ℚ))

/-- `df.empty`. -/
def Table.empty (t : Table) : Bool := t.index.isEmpty || t.columns.isEmpty

mutual
/-- A Python object. -/
inductive Obj where
  | bool (b : Bool)
  | int (i : Int)
  | float (x : Option ℚ)
  | str (s : String)
  | table (t : Table)
  | list (l : Objs)
  | dict (d : Items)
/-- The elements of a list. -/
inductive Objs where
  | nil
  | cons (a : Obj) (l : Objs)
/-- The items of a dictionary, in insertion order. -/
inductive Items where
  | nil
  | cons (k : String) (v : Obj) (d : Items)
end

inductive Err where
  | keyError | attributeError | typeError
  deriving DecidableEq

/-- Python classes of the objects. -/
inductive Ty where
  | bool | int | float | str | table | list | dict
  deriving DecidableEq

def Obj.ty : Obj → Ty
  | .bool _ => .bool
  | .int _ => .int
  | .float _ => .float
  | .str _ => .str
  | .table _ => .table
  | .list _ => .list
  | .dict _ => .dict

/-- `isinstance` of an object of the first class: `bool` is a subclass of `int`. -/
def Ty.isInstance (a b : Ty) : Bool := a = b || (a = .bool && b = .int)

/-- `np.dtype(cls).type`: anything numpy does not know is `object_`. -/
def Ty.numpy : Ty → Nat
  | .bool => 0
  | .int => 1
  | .float => 2
  | .str => 3
  | _ => 4

/-- The type check at `common.py` 231-237. -/
def typesPass (a b : Ty) : Bool :=
  a.isInstance b || (a.numpy = b.numpy || b.numpy = a.numpy)

/-- `math.isclose(a, b, rel_tol=1e-5, abs_tol=1e-8)`, used by `assert_frame_equal`. -/
def isClose (a b : ℚ) : Bool :=
  |a - b| ≤ max ((1 / 100000) * max |a| |b|) (1 / 100000000)

def cellClose : Option ℚ → Option ℚ → Bool
  | none, none => true
  | some a, some b => isClose a b
  | _, _ => false

def rowsClose : List (List (Option ℚ)) → List (List (Option ℚ)) → Bool
  | [], [] => true
  | r :: rs, q :: qs =>
    (r.length = q.length && (r.zip q).all (fun e => cellClose e.1 e.2)) && rowsClose rs qs
  | _, _ => false

/-- Two frames (`common.py` 248-259): both empty, equal, or equal up to the tolerance of
`pd.testing.assert_frame_equal`. -/
def tableEq (a b : Table) : Bool :=
  if a.empty && b.empty then true
  else if a.index = b.index ∧ a.columns = b.columns ∧ a.cells = b.cells then true
  else a.index = b.index && a.columns = b.columns && rowsClose a.cells b.cells

def Items.get? : Items → String → Option Obj
  | .nil, _ => none
  | .cons k v d, q => if k = q then some v else d.get? q

def Items.keys : Items → List String
  | .nil => []
  | .cons k _ d => k :: d.keys

def Objs.length : Objs → Nat
  | .nil => 0
  | .cons _ l => l.length + 1

/-- `k in l` for a string `k`. -/
def Objs.hasStr : Objs → String → Bool
  | .nil, _ => false
  | .cons (.str s) l, k => s = k || l.hasStr k
  | .cons _ l, k => l.hasStr k

/-- The outcome of the comparison of a container with one of another class (which passes
the type check); simplified to `TypeError` where the real error depends on the contents. -/
def crossEq : Obj → Obj → Except Err Bool
  -- frames: `b.empty` fails on lists and dictionaries (250), else they differ (252-259)
  | .table t, .list _ => if t.empty then .error .attributeError else .ok false
  | .table t, .dict _ => if t.empty then .error .attributeError else .ok false
  -- lists: lengths (286), then `b[i]` fails
  | .list l, .dict d =>
    if l.length ≠ d.keys.length then .ok false
    else if l.length = 0 then .ok true else .error .keyError
  | .list l, .table t =>
    if l.length ≠ t.index.length then .ok false
    else if l.length = 0 then .ok true else .error .keyError
  -- dictionaries: first key (271), then extra keys (278)
  | .dict .nil, .list l => .ok (l.length = 0)
  | .dict (.cons k _ _), .list l => if l.hasStr k then .error .typeError else .ok false
  | .dict .nil, .table t => .ok t.columns.isEmpty
  | .dict (.cons k _ _), .table t => if k ∈ t.columns then .error .typeError else .ok false
  | _, _ => .ok false

mutual
/-- `common.equals(a, b)`. -/
def equals : Obj → Obj → Except Err Bool
  | .table t, .table u => .ok (tableEq t u)
  | .list l, .list m => if l.length ≠ m.length then .ok false else equalsList l m
  | .dict d, .dict e => equalsDict d d e
  -- leaves (292-303)
  | .bool a, .bool b => .ok (a = b)
  | .int a, .int b => .ok (a = b)
  | .bool a, .int b => .ok ((if a then 1 else 0) = b)
  | .float a, .float b => .ok (a = b)
  | .str a, .str b => .ok (a = b)
  | a, b => if typesPass a.ty b.ty then crossEq a b else .ok false
/-- The loop over list elements (288-290). -/
def equalsList : Objs → Objs → Except Err Bool
  | .nil, _ => .ok true
  | .cons a l, .cons b m =>
    match equals a b with
    | .error e => .error e
    | .ok false => .ok false
    | .ok true => equalsList l m
  | .cons _ _, .nil => .error .keyError
/-- The loop over dictionary items (270-282); `all` is the whole first dictionary. -/
def equalsDict (all : Items) : Items → Items → Except Err Bool
  | .nil, e => .ok (e.keys.all (fun k => k ∈ all.keys))
  | .cons k v d, e =>
    match e.get? k with
    | none => .ok false
    | some w =>
      match equals v w with
      | .error err => .error err
      | .ok false => .ok false
      | .ok true => equalsDict all d e
end

/-- `Network.equals` on two networks, given by their `__dict__` (`networks.py` 430-450): in
`log_mode="silent"` all attributes are compared and mismatches are collected. -/
def networkEquals : Items → Items → Except Err Bool
  | .nil, _ => .ok true
  | .cons k v d, e =>
    match e.get? k with
    | none => .error .keyError
    | some w =>
      match equals v w with
      | .error err => .error err
      | .ok r =>
        match networkEquals d e with
        | .error err => .error err
        | .ok r' => .ok (r && r')

end Verif.Equality
