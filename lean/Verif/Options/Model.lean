import Verif.Py.Dict

/-!
# Model of `pypsa/_options.py`

The option tree is a nested dictionary.  A dotted path is represented by its list
of parts (`path.split(".")`, never empty in Python; the model answers the
impossible empty list with the same error as an unknown name).
Documentation strings are not modelled.
-/

namespace Verif.Options

/-- `Option` (`_options.py` 29-50) or `OptionsNode` (53-57): a leaf with value and
default, or a category with its `_children` dictionary. -/
inductive Node (V : Type) where
  | opt (value dflt : V)
  | cat (children : List (String × Node V))

/-- The `_children` dictionary of the root `options` object (`_options.py` 203). -/
abbrev Tree (V : Type) := Dict String (Node V)

/-- The exceptions raised by the option functions. -/
inductive Err where
  /-- `InvalidOptionError` (`_options.py` 6). -/
  | invalidOption
  /-- `ValueError`. -/
  | valueError
deriving DecidableEq, Repr

variable {V : Type}

/-- `OptionsNode.get_option` (`_options.py` 106-126). -/
def getOption : Tree V → List String → Except Err V
  | _, [] => .error .invalidOption
  | t, [leaf] =>
    match Dict.get? t leaf with
    | some (.opt v _) => .ok v
    | _ => .error .invalidOption
  | t, part :: rest =>
    match Dict.get? t part with
    | some (.cat c) => getOption c rest
    | _ => .error .invalidOption

/-- `OptionsNode.set_option` (`_options.py` 128-148). -/
def setOption : Tree V → List String → V → Except Err (Tree V)
  | _, [], _ => .error .invalidOption
  | t, [leaf], v =>
    match Dict.get? t leaf with
    | some (.opt _ d) => .ok (Dict.set t leaf (.opt v d))
    | _ => .error .invalidOption
  | t, part :: rest, v =>
    match Dict.get? t part with
    | some (.cat c) =>
      match setOption c rest v with
      | .ok c' => .ok (Dict.set t part (.cat c'))
      | .error e => .error e
    | _ => .error .invalidOption

/-- `OptionsNode._add_option` (`_options.py` 80-104).  Missing categories are
created on the way down; an error can only be met inside existing categories, so
nothing has been created when it is raised. -/
def addOption : Tree V → List String → V → Except Err (Tree V)
  | _, [], _ => .error .valueError
  | t, [leaf], v =>
    match Dict.get? t leaf with
    | some (.cat _) => .error .valueError
    | _ => .ok (Dict.set t leaf (.opt v v))
  | t, part :: rest, v =>
    match Dict.get? t part with
    | some (.opt _ _) => .error .valueError
    | some (.cat c) =>
      match addOption c rest v with
      | .ok c' => .ok (Dict.set t part (.cat c'))
      | .error e => .error e
    | none =>
      match addOption [] rest v with
      | .ok c' => .ok (Dict.set t part (.cat c'))
      | .error e => .error e

mutual
/-- `Option.reset` (`_options.py` 43-45) and `OptionsNode.reset_all` on a child. -/
def resetNode : Node V → Node V
  | .opt _ d => .opt d d
  | .cat c => .cat (resetAll c)
/-- `OptionsNode.reset_all` (`_options.py` 150-156). -/
def resetAll : List (String × Node V) → List (String × Node V)
  | [] => []
  | (k, n) :: r => (k, resetNode n) :: resetAll r
end

/-! ## `option_context` and programs that use options -/

/-- The first loop of `option_context` (`_options.py` 228-230): remember the current
value, then set the temporary one.  Returns the tree, `original_values` and whether
an exception was raised. -/
def enter : Tree V → List (List String × V) → Dict (List String) V →
    Tree V × Dict (List String) V × Bool
  | t, [], orig => (t, orig, false)
  | t, (name, v) :: ps, orig =>
    match getOption t name with
    | .error _ => (t, orig, true)
    | .ok old =>
      match setOption t name v with
      | .error _ => (t, Dict.set orig name old, true)
      | .ok t' => enter t' ps (Dict.set orig name old)

/-- The `finally` block (`_options.py` 234-236); a failing `set_option` stops it. -/
def restore : Tree V → Dict (List String) V → Tree V × Bool
  | t, [] => (t, false)
  | t, (name, v) :: os =>
    match setOption t name v with
    | .error _ => (t, true)
    | .ok t' => restore t' os

/-- `with option_context(...): body` (`_options.py` 206-236) for an arbitrary body
given as a state transformer that also tells whether it raised. -/
def optionContext (pairs : List (List String × V)) (body : Tree V → Tree V × Bool)
    (t : Tree V) : Tree V × Bool :=
  let (t1, orig, failed) := enter t pairs []
  let (t2, raised) := if failed then (t1, true) else body t1
  let (t3, failed3) := restore t2 orig
  (t3, raised || failed3)

/-- Programs that work on the option tree; `tryExcept p` is
`try: p except Exception: pass`, `branch k p q` reads option `k` and continues
depending on the value. -/
inductive Prog (V : Type) where
  | skip
  | raise
  | set (name : List String) (v : V)
  | add (name : List String) (v : V)
  | reset
  | branch (name : List String) (test : V → Bool) (p q : Prog V)
  | seq (p q : Prog V)
  | tryExcept (p : Prog V)
  | context (pairs : List (List String × V)) (body : Prog V)

/-- Run a program: final tree and whether it ended with an exception. -/
def run : Prog V → Tree V → Tree V × Bool
  | .skip, t => (t, false)
  | .raise, t => (t, true)
  | .set n v, t =>
    match setOption t n v with
    | .ok t' => (t', false)
    | .error _ => (t, true)
  | .add n v, t =>
    match addOption t n v with
    | .ok t' => (t', false)
    | .error _ => (t, true)
  | .reset, t => (resetAll t, false)
  | .branch n test p q, t =>
    match getOption t n with
    | .ok v => if test v then run p t else run q t
    | .error _ => (t, true)
  | .seq p q, t =>
    let (t', r) := run p t
    if r then (t', true) else run q t'
  | .tryExcept p, t => ((run p t).1, false)
  | .context pairs body, t => optionContext pairs (run body) t

/-- The option tree set up at import time (`_options.py` 243-261), with values
encoded as natural numbers (`True` = 1). -/
def defaultOptions : Except Err (Tree Nat) := do
  let t ← addOption [] ["warnings", "components_store_iter"] 1
  let t ← addOption t ["params", "statistics", "nice_names"] 1
  let t ← addOption t ["params", "statistics", "drop_zero"] 1
  addOption t ["params", "statistics", "round"] 5

end Verif.Options
