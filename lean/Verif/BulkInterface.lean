/-
Model of `separate_into_bulk_and_interface` (`phasefield/analytical.py:196-207`).
-/
import Mathlib.Algebra.Field.Basic

namespace Lbm
namespace BulkInterface

/-- Free energies: numbers, symbols, sums, products, powers, reciprocals, other functions (`sqrt` etc.), and `Diff` of an
expression. -/
inductive Expr (S K : Type)
  | num (k : K)
  | sym (s : S)
  | add (a b : Expr S K)
  | mul (a b : Expr S K)
  | neg (a : Expr S K)
  | pow (a : Expr S K) (n : ℕ)
  | inv (a : Expr S K)
  | app (f : K → K) (a : Expr S K)
  | diff (a : Expr S K)

variable {S K : Type} [Field K]

/-- `free_energy.subs({a: 0 for a in free_energy.atoms(Diff)})` (`analytical.py:205`). The atoms include those inside of others; the
outermost are replaced first (sympy sorts by the number of operations), so nothing inside of a `Diff` is left. -/
def subsZero : Expr S K → Expr S K
  | .num k => .num k
  | .sym s => .sym s
  | .add a b => .add (subsZero a) (subsZero b)
  | .mul a b => .mul (subsZero a) (subsZero b)
  | .neg a => .neg (subsZero a)
  | .pow a n => .pow (subsZero a) n
  | .inv a => .inv (subsZero a)
  | .app f a => .app f (subsZero a)
  | .diff _ => .num 0

/-- `separate_into_bulk_and_interface` (`analytical.py:196-207`): bulk and interface part. `expand` (line 204) does not change values
and is left out. -/
def separate (f : Expr S K) : Expr S K × Expr S K :=
  let bulk := subsZero f
  (bulk, .add f (.neg bulk))

end BulkInterface
end Lbm
