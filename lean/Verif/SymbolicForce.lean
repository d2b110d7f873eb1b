import Mathlib.Algebra.Field.Defs
import Mathlib.Data.List.Basic

/-!
# The symbolic force vector of force models

`AbstractForceModel.__init__` replaces the force vector by symbols and keeps a substitution dictionary
(`forcemodels.py:121-127`). The dictionary becomes a list of assignments of the collision rule
(`momentbasedmethod.py:343-345`, `centralmomentbasedmethod.py:331-333`, `cumulantbasedmethod.py:327-329`) and of the
equations of the conserved quantities (`conservedquantitycomputation.py:506-521`).

Simplified: SymPy expressions are the terms `Term` built from numbers, symbols, sums, products and inverses; field accesses
are symbols (in pystencils they are instances of `sp.Symbol`). Assignment collections are lists of assignments executed from
first to last; the order chosen by `topological_sort` of pystencils is any order in which a symbol is assigned before it is used.
-/

namespace Lbm
namespace SymbolicForce

/-- SymPy expressions that may be given as components of a force -/
inductive Term (K : Type) where
  | num (c : K)
  | sym (name : String)
  | add (a b : Term K)
  | mul (a b : Term K)
  | inv (a : Term K)

namespace Term
variable {K : Type}

/-- `isinstance(x, sp.Symbol)` (`forcemodels.py:126`) -/
def isSymbol : Term K → Bool
  | sym _ => true
  | _ => false

/-- `free_symbols` -/
def vars : Term K → List String
  | num _ => []
  | sym s => [s]
  | add a b => a.vars ++ b.vars
  | mul a b => a.vars ++ b.vars
  | inv a => a.vars

/-- the value of an expression when the symbols have the values `env` -/
def eval [Field K] (env : String → K) : Term K → K
  | num c => c
  | sym s => env s
  | add a b => a.eval env + b.eval env
  | mul a b => a.eval env * b.eval env
  | inv a => (a.eval env)⁻¹

end Term

variable {K : Type}

/-- `FORCE_SYMBOLS = sp.symbols("F_x, F_y, F_z")` (`forcemodels.py:102`) -/
def forceSymbols : List String := ["F_x", "F_y", "F_z"]

/-- one entry of `_symbolic_force` (`forcemodels.py:126`) -/
def symbolOf : Term K → String → String
  | .sym s, _ => s
  | _, y => y

/-- `_symbolic_force` (`forcemodels.py:126`); `zip` stops at the shorter list -/
def symbolicForce (force : List (Term K)) : List String :=
  List.zipWith symbolOf force forceSymbols

/-- `x != y` for a symbol `x` and an expression `y` (`forcemodels.py:127`) -/
def differs (x : String) : Term K → Bool
  | .sym s => x != s
  | _ => true

/-- assigning to a key of a dictionary: an existing key keeps its place -/
def insertKey (d : List (String × Term K)) (k : String) (v : Term K) : List (String × Term K) :=
  if d.any fun p => p.1 == k then d.map fun p => if p.1 == k then (k, v) else p else d ++ [(k, v)]

/-- `_subs_dict_force` (`forcemodels.py:127`), in the order of insertion -/
def subsDict (force : List (Term K)) : List (String × Term K) :=
  ((symbolicForce force).zip force).foldl (fun d p => if differs p.1 p.2 then insertKey d p.1 p.2 else d) []

/-- executing a list of assignments -/
def run [Field K] (l : List (String × Term K)) (env : String → K) : String → K :=
  l.foldl (fun e a => fun s => if s = a.1 then a.2.eval e else e s) env

/-- The condition established by `topological_sort`: no right hand side mentions a symbol that is assigned by the same or a later
assignment. -/
def Sorted : List (String × Term K) → Prop
  | [] => True
  | a :: l => (∀ s ∈ a.2.vars, s ≠ a.1 ∧ s ∉ l.map Prod.fst) ∧ Sorted l

/-- `add_symbolic_force_substitutions` (`conservedquantitycomputation.py:506-521`), and `forcing_subexpressions` in front of the
other subexpressions -/
def addSubstitutions (subexpressions : List (String × Term K)) (force : List (Term K)) : List (String × Term K) :=
  subsDict force ++ subexpressions

/-- the scaling of a force by the fluid fraction of partially saturated cells (`creationfunctions.py:470-471`); `b` is the symbol
`psm_config.fraction_field.center` -/
def scaleByFraction [Field K] (b : String) (force : List (Term K)) : List (Term K) :=
  force.map fun f => .mul (.add (.num 1) (.mul (.num (-1)) (.sym b))) f

end SymbolicForce
end Lbm
