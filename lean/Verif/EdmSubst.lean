/-
Model of the substitutions in the force model `EDM` (`forcemodels.py:492-509`) on expressions: the equilibrium is evaluated at the shifted
velocity by `subs` with a dictionary. SymPy sorts the keys of a dictionary (of symbols: by name, so `u_0, u_1, u_2`) and replaces
them one after the other, also in what was inserted before.

Simplified: expressions are the terms of `SymbolicForce.lean`; `subs` on them replaces all occurrences of a symbol and evaluates nothing.
-/
import Verif.SymbolicForce
import Mathlib.Algebra.Field.Basic

namespace Lbm
namespace EdmSubst

open SymbolicForce

variable {K : Type}

/-- replacing one symbol -/
def subst (x : String) (s : Term K) : Term K → Term K
  | .num c => .num c
  | .sym y => if y = x then s else .sym y
  | .add a b => .add (subst x s a) (subst x s b)
  | .mul a b => .mul (subst x s a) (subst x s b)
  | .inv a => .inv (subst x s a)

/-- `subs` with a dictionary whose sorted items are `l` -/
def subs (l : List (String × Term K)) (t : Term K) : Term K := l.foldl (fun t p => subst p.1 p.2 t) t

/-- `EDM.__call__` (`forcemodels.py:495-509`): `us` are the velocity symbols, `force` is `_force` (not the symbolic force vector), `eqs` are
the equilibrium terms; `ref` is the density symbol if compressible, else 1 (line 497) -/
def edm [Field K] (us : List String) (rho deltaRho : String) (rho0 : K) (compressible : Bool) (force eqs : List (Term K)) :
    List (Term K) :=
  let ref : Term K := if compressible then .sym rho else .num 1
  let eqs := eqs.map (subs [(deltaRho, .add (.sym rho) (.num (-rho0)))])
  let shifted := us.zip (List.zipWith (fun u f => Term.add (.sym u) (.mul f (.inv ref))) us force)
  eqs.map fun t => .add (subs shifted t) (.mul (.num (-1)) t)

end EdmSubst
end Lbm
