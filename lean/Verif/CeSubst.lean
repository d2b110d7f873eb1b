/-
Model of the insertion of moments into Chapman-Enskog equations: `LbMethodEqMoments.substitute*`, `insert_moments` and
`substitute_collision_operator_moments` (`chapman_enskog/chapman_enskog.py:283-336`).

Expressions are trees with binary sums and products and integer powers.  How the values of the moments are computed is in
`ChapmanEnskog.lean`; here they are parameters.
-/
import Mathlib.Algebra.Field.Defs

namespace Lbm
namespace CeSubst

/-- the names of moments (`\Pi`, `\Upsilon`) -/
inductive Name where
  | pre
  | post
deriving DecidableEq

/-- sympy expressions with `CeMoment`s (`chapman_enskog.py:190-237`) as leaves -/
inductive Ex (K : Type) where
  | num (a : K)
  | sym (s : ℕ)
  | mom (name : Name) (tuple : List ℕ) (superscript : ℤ)
  | add (a b : Ex K)
  | mul (a b : Ex K)
  | pow (a : Ex K) (n : ℤ)
  | diff (i : ℕ) (a : Ex K)

variable {K : Type}

namespace Ex

/-- replace moments by expressions, the others stay: `subs` with a dictionary of moments whose values are not replaced again -/
def replace (g : Name → List ℕ → ℤ → Option (Ex K)) : Ex K → Ex K
  | num a => num a
  | sym s => sym s
  | mom n t s => (g n t s).getD (mom n t s)
  | add a b => add (replace g a) (replace g b)
  | mul a b => mul (replace g a) (replace g b)
  | pow a n => pow (replace g a) n
  | diff i a => diff i (replace g a)

/-- `node**exponent` of a leaf -/
def leafPow (e : Ex K) (n : ℤ) : Ex K := if n = 1 then e else pow e n

/-- `visit` of `substitute_post_collision_moments` (`chapman_enskog.py:302-309`); `post t s n` is
`get_post_collision_moment` of the moment with exponent `n`. `sp.expand` (line 300) is assumed to be done. -/
def visit (post : List ℕ → ℤ → ℤ → Ex K) : Ex K → ℤ → Ex K
  | pow a n, _ => visit post a n
  | mom .post t s, n => post t s n
  | mom .pre t s, n => leafPow (mom .pre t s) n
  | num a, n => leafPow (num a) n
  | sym s, n => leafPow (sym s) n
  | add a b, _ => add (visit post a 1) (visit post b 1)
  | mul a b, _ => mul (visit post a 1) (visit post b 1)
  | diff i a, _ => diff i (visit post a 1)

end Ex

open Ex

/-- `substitute_post_collision_moments` (`chapman_enskog.py:288-310`) -/
def substitutePost (post : List ℕ → ℤ → ℤ → Ex K) (e : Ex K) : Ex K := visit post e 1

/-- `substitute_pre_collision_moments` (`chapman_enskog.py:283-286`); `eq` is `get_pre_collision_moment` -/
def substitutePre (eq : List ℕ → Ex K) (e : Ex K) : Ex K :=
  e.replace fun n t s => if s = 0 ∧ n = .pre then some (eq t) else none

/-- `substitute` (`chapman_enskog.py:312-315`) -/
def substitute (post : List ℕ → ℤ → ℤ → Ex K) (eq : List ℕ → Ex K) (e : Ex K) : Ex K :=
  substitutePre eq (substitutePost post e)

/-- `insert_moments` (`chapman_enskog.py:318-326`) for the name of the moments before the collision -/
def insertMoments [Zero K] (eq : List ℕ → Ex K) (useSolvability : Bool) (e : Ex K) : Ex K :=
  e.replace fun n t s =>
    if s = 0 ∧ n = .pre then some (eq t)
    else if useSolvability = true ∧ 0 < s ∧ t.sum ≤ 1 ∧ n = .pre then some (num 0)
    else none

/-- `substitute_collision_operator_moments` (`chapman_enskog.py:329-336`) -/
def substituteOperator (post : List ℕ → ℤ → ℤ → Ex K) (e : Ex K) : Ex K :=
  e.replace fun n t s => if n = .post then some (post t s 1) else none

end CeSubst
end Lbm
