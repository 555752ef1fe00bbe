import Mathlib.Data.List.Basic

/-!
# Default dialect (dialects/__init__.py)

The two functions only touch a module variable, so what matters is Python's scoping rule: a name
assigned in a function body is local to the call unless the body declares it `global`.  The model is a
small interpreter with exactly that rule.  Values are strings (dialect names).  Not modelled: the
decorators `gcode_dialect` and `word_dialect` (mapping.py:3-44), whose bodies are empty (they return
`None`).
-/

namespace Pygcode
namespace Dialect

/-- A statement of a function body. -/
inductive Stmt
  /-- `target = source` (both names). -/
  | assign (target source : String)
  /-- `return source`. -/
  | ret (source : String)
  deriving DecidableEq, Repr

/-- A function: parameters, names declared `global`, body. -/
structure Fn where
  params : List String
  globals : List String := []
  body : List Stmt
  deriving Repr

/-- Variables by name. -/
abbrev Env := List (String × String)

/-- Python's scoping rule: parameters and assigned names are local unless declared global. -/
def Fn.isLocal (f : Fn) (x : String) : Bool :=
  !f.globals.contains x &&
    (f.params.contains x || f.body.any fun s => match s with | .assign t _ => t == x | .ret _ => false)

/-- Outcome of a call: the module's variables afterwards, and the returned value (`none` = `None`),
or a `NameError` / `UnboundLocalError` / `TypeError`. -/
inductive Out
  | ok (globals : Env) (ret : Option String)
  | fail
  deriving DecidableEq, Repr

/-- Execution of the statements of a body. -/
def Fn.exec (f : Fn) : List Stmt → (globals locals : Env) → Out
  | [], g, _ => .ok g none
  | .ret x :: _, g, l =>
    match (if f.isLocal x then l else g).lookup x with
    | some v => .ok g (some v)
    | none => .fail
  | .assign t x :: rest, g, l =>
    match (if f.isLocal x then l else g).lookup x with
    | some v => if f.isLocal t then f.exec rest g ((t, v) :: l) else f.exec rest ((t, v) :: g) l
    | none => .fail

/-- A call with positional arguments. -/
def Fn.call (f : Fn) (g : Env) (args : List String) : Out :=
  if args.length = f.params.length then f.exec f.body g (f.params.zip args) else .fail

/-- The module's variables after import (dialects/__init__.py:23). -/
def moduleVars : Env := [("_DEFAULT", "linuxcnc")]

/-- `get_default` (dialects/__init__.py:26-31). -/
def getDefault : Fn := { params := [], body := [.ret "_DEFAULT"] }

/-- `set_default` (dialects/__init__.py:34-55): no `global` statement. -/
def setDefault : Fn := { params := ["name"], body := [.assign "_DEFAULT" "name"] }

/-- One use of the module by a program. -/
inductive Use
  | get
  | set (name : String)
  deriving DecidableEq, Repr

/-- A program using `get_default` and the given `set_default`: the results, in order. -/
def session (set : Fn) : Env → List Use → List Out
  | _, [] => []
  | g, u :: us =>
    let r := match u with
      | .get => getDefault.call g []
      | .set n => set.call g [n]
    r :: (match r with
      | .ok g' _ => session set g' us
      | .fail => [])

end Dialect
end Pygcode
