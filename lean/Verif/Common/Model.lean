import Mathlib.Data.List.Basic
import Verif.Py.Dict

/-!
# Helpers of `pypsa/common.py`: renamed keywords and selections of snapshots

`rename_deprecated_kwargs`, `deprecated_kwargs` with Python's binding of arguments,
and `as_index`.

Simplified: the warning about a deprecated keyword is not modelled (it is taken to
return; a user can make Python raise it).  The comparison of version strings is a
truth value.  Functions take their arguments by name without `**kwargs`.
-/

namespace Verif.Common

/-! ## Renamed keywords -/

section Kwargs

variable {K V : Type} [DecidableEq K]

/-- Exceptions. -/
inductive Err where
  | valueError        -- `deprecated_in` lies in the future
  | both              -- the `DeprecationWarning` for the old and the new keyword
  | typeError         -- Python: several values, unknown keyword, missing argument
deriving DecidableEq, Repr

/-- The loop of `rename_deprecated_kwargs` (`common.py` 339-358). -/
def renameLoop : List (K × K) → Dict K V → Except Err (Dict K V)
  | [], kw => .ok kw
  | (old, new) :: al, kw =>
    match Dict.get? kw old with
    | none => renameLoop al kw
    | some v =>
      if Dict.contains kw new then .error .both
      else renameLoop al (Dict.set (Dict.erase kw old) new v)

/-- `rename_deprecated_kwargs` (`common.py` 308-358); `future` says whether
`deprecated_in` is later than the current version (332-337). -/
def rename (future : Bool) (al : Dict K K) (kw : Dict K V) : Except Err (Dict K V) :=
  if future then .error .valueError else renameLoop al kw

/-- Python's binding of positional and keyword arguments to the parameters of a
function: too many, doubly given, unknown and missing arguments are a `TypeError`. -/
def bind (params : List K) (args : List V) (kw : Dict K V) : Except Err (K → Option V) :=
  if params.length < args.length then .error .typeError
  else if (params.take args.length).any (fun p => Dict.contains kw p) then .error .typeError
  else if (Dict.keys kw).any (fun k => decide (k ∉ params)) then .error .typeError
  else if (params.drop args.length).any (fun p => !Dict.contains kw p) then .error .typeError
  else .ok (fun p => if p ∈ params.take args.length
    then Dict.get? ((params.take args.length).zip args) p else Dict.get? kw p)

/-- A call of a decorated function up to the entry into its body
(`deprecated_kwargs`, `common.py` 361-400). -/
def call (future : Bool) (al : Dict K K) (params : List K) (args : List V) (kw : Dict K V) :
    Except Err (K → Option V) :=
  match rename future al kw with
  | .error e => .error e
  | .ok kw' => bind params args kw'

end Kwargs

/-! ## Selections of snapshots -/

section Index

variable {L N : Type} [DecidableEq L]

/-- A pandas index: the names of its levels and its labels.  A label is the list of its
values on the levels, so a label of an index with one level is a list of length one. -/
structure Index (N L : Type) where
  names : List N
  labels : List (List L)

/-- Every label has one value for each level. -/
def Index.WF (i : Index N L) : Prop := ∀ l ∈ i.labels, l.length = i.names.length

/-- What a caller may pass as `values`: nothing, a MultiIndex, an index with one level,
one label, or a list of labels.  (Lists of tuples, from which pandas may build a
MultiIndex, are not modelled.) -/
inductive Values (N L : Type) where
  | none
  | multi (i : Index N L)
  | flat (i : Index N L)
  | scalar (l : L)
  | list (l : List L)

/-- Outcome: the index returned, and the index object of the caller afterwards. -/
structure Outcome (N L : Type) where
  result : Index N L
  caller : Option (Index N L)

/-- The first part of `as_index` (`common.py` 143-161): `values_` and the object that the
caller holds.  Setting as many names as there are levels is pandas' condition. -/
def pick (attr : Index N L) : Values N L → Option (Outcome N L)
  | .none => some ⟨attr, none⟩
  | .multi i =>
    if i.names.length = attr.names.length then
      some ⟨⟨attr.names, i.labels⟩, some ⟨attr.names, i.labels⟩⟩
    else none
  | .flat i => some ⟨⟨attr.names.take 1, i.labels⟩, some ⟨attr.names.take 1, i.labels⟩⟩
  | .scalar l => some ⟨⟨attr.names.take 1, [[l]]⟩, none⟩
  | .list l => some ⟨⟨attr.names.take 1, l.map (fun x => [x])⟩, none⟩

/-- `as_index` (`common.py` 117-177); `none` is the `ValueError`. -/
def asIndex (attr : Index N L) (v : Values N L) (force : Bool) : Option (Outcome N L) :=
  match pick attr v with
  | none => none
  | some o => if force && !(o.result.labels.all (fun l => decide (l ∈ attr.labels))) then none
    else some o

end Index

end Verif.Common
