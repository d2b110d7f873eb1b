/-
Model of the constructor, equality and hash of `LBStencil` (`stencils.py:8-97`).
-/
import Verif.Stencil
import Verif.StencilTables
import Mathlib.Data.List.Dedup

namespace Lbm

/-- The error classes raised by the modelled code. -/
inductive PyErr where
  | valueError | indexError | keyError | typeError | notImplemented | assertion | attributeError | exception
  deriving DecidableEq, Repr

/-- The argument of `LBStencil(...)` (`stencils.py:24-35`): a tuple of tuples, a string, an `enums.Stencil` member
(only its name is used), or anything else. -/
inductive StencilArg where
  | entries (l : List (List Int))
  | name (s : String)
  | enum (s : String)
  | other
  deriving DecidableEq

/-- An `LBStencil` object: entries and ordering tag (`stencils.py:45-47`). -/
structure StencilObj where
  entries : List (List Int)
  ordering : Option String
  deriving DecidableEq

/-- pystencils `is_valid(stencil)`: all entries have the length of the first; `stencil[0]` of an empty tuple is an
`IndexError`. -/
def isValidStencil : List (List Int) → Except PyErr Bool
  | [] => .error .indexError
  | e :: l => .ok ((e :: l).all fun d => d.length == e.length)

/-- First part of `LBStencil.__init__` (`stencils.py:25-35`): the entries meant by the argument and the ordering tag. -/
def resolveStencil (ordering : String) : StencilArg → Except PyErr (List (List Int) × Option String)
  | .entries l => .ok (l, none)
  | .name s | .enum s =>
    match Tables.lookup s ordering with
    | some l => .ok (l, some ordering)
    | none => .error .valueError
  | .other => .error .valueError

/-- Second part of `LBStencil.__init__` (`stencils.py:37-47`): the checks. -/
def checkStencil (entries : List (List Int)) (ord : Option String) : Except PyErr StencilObj :=
  match isValidStencil entries with
  | .error e => .error e
  | .ok false => .error .valueError
  | .ok true =>
    -- `len(set(entries)) < len(entries)`
    if entries.dedup.length < entries.length then .error .valueError else .ok ⟨entries, ord⟩

/-- `LBStencil.__init__` (`stencils.py:24-47`). -/
def mkStencil (arg : StencilArg) (ordering : String) : Except PyErr StencilObj := do
  let (entries, ord) ← resolveStencil ordering arg
  checkStencil entries ord

/-- pystencils `have_same_entries(s1, s2)`: equal length and `set(s1) - set(s2)` empty. -/
def haveSameEntries (a b : List (List Int)) : Bool :=
  a.length == b.length && a.all fun e => b.contains e

/-- `LBStencil.__eq__` (`stencils.py:89-90`). -/
def StencilObj.eq (a b : StencilObj) : Bool :=
  a.ordering == b.ordering && haveSameEntries a.entries b.entries

/-- `LBStencil.__hash__` (`stencils.py:98-99`): python's hash `h` of the tuple of entries. -/
def StencilObj.hash (h : List (List Int) → Int) (a : StencilObj) : Int := h a.entries

end Lbm
