/-
Model of `get_equations_for_zeroth_and_first_order_moment` (`methods/conservedquantitycomputation.py:383-452`), the
equations with shared partial sums from which density and momentum are computed.

A sympy expression that is linear with integer coefficients in the population symbols and the `vel_iTerm` symbols is
represented by its coefficients, which is sympy's normal form of `Add`. The population symbols are assumed to be distinct.
-/
import Mathlib.Algebra.BigOperators.Fin
import Mathlib.Algebra.BigOperators.Ring.Finset
import Mathlib.Data.Fintype.Sum
import Mathlib.Tactic.Ring
import Verif.StencilCtor

namespace Lbm

variable {Q D : ℕ}

/-- a population symbol or one of the symbols `vel_iTerm` -/
abbrev LinSym (Q D : ℕ) := Fin Q ⊕ Fin D

/-- a linear expression by its coefficients -/
abbrev Lin (Q D : ℕ) := LinSym Q D → ℤ

namespace Lin

/-- the symbols with non-zero coefficient -/
def support (e : Lin Q D) : Finset (LinSym Q D) := Finset.univ.filter fun s => e s ≠ 0

/-- `sum(rhs)` of a set of symbols -/
def sumOf (T : Finset (LinSym Q D)) : Lin Q D := fun s => if s ∈ T then 1 else 0

/-- a symbol as expression -/
def single (s : LinSym Q D) : Lin Q D := fun t => if t = s then 1 else 0

/-- `set(filter_out_plus_terms(e).args)` (lines 402-407, 425): the terms of an `Add` that are no `Mul` are the symbols with
coefficient 1. The sum of no terms is the `int` 0 and has no attribute `args`; a single symbol has no `args`. An
expression that is itself a symbol has no terms. An expression `k * f` is not an `Add`, its `args` are `k` and `f`; such
an expression only occurs for a stencil with exactly one direction moving along the axis, it is not modelled and reported
as `exception` here. -/
def plusTerms (e : Lin Q D) : Except PyErr (Finset (LinSym Q D)) :=
  if e.support.card ≤ 1 then
    if ∀ s ∈ e.support, e s = 1 then .error .attributeError else .error .exception
  else
    let P := Finset.univ.filter fun s => e s = 1
    if P.card = 0 then .error .attributeError
    else if P.card = 1 then .ok ∅
    else .ok P

/-- `e.subs(sum(T), new)`: for a single symbol all its occurrences are replaced; a sum is replaced where all its terms
occur in `e`, or the negatives of all its terms (`Add._eval_subs`). -/
def subs (e : Lin Q D) (T : Finset (LinSym Q D)) (new : LinSym Q D) : Lin Q D :=
  if T.card = 1 then fun s => (if s ∈ T then 0 else e s) + if s = new then ∑ t ∈ T, e t else 0
  else if ∀ s ∈ T, e s = 1 then fun s => e s - sumOf T s + single new s
  else if ∀ s ∈ T, e s = -1 then fun s => e s + sumOf T s - single new s
  else e

end Lin

/-- lines 427-436: the sets of terms summed up in the subexpressions. `seen` are the sets of the earlier axes, which the
in-place `rhs -= plus_terms[j]` has already reduced. `none` stands for `subexpressions = []`. -/
def sharedTerms (seen : List (Finset (LinSym Q D))) :
    List (Finset (LinSym Q D)) → Option (List (Finset (LinSym Q D)))
  | [] => some seen
  | P :: rest =>
    let rhs := seen.foldl (fun r S => r \ S) P
    if rhs.card = 0 then none else sharedTerms (seen ++ [rhs]) rest

/-- the generated equations: right-hand sides of `vel_iTerm`, of the zeroth, first and second moments -/
structure MomentEquations (Q D : ℕ) where
  subexpressions : List (Finset (LinSym Q D))
  zeroth : Lin Q D
  first : Fin D → Lin Q D
  second : Fin D → Fin D → Lin Q D

/-- lines 412-416 -/
def firstMoment (c : Fin Q → Fin D → ℤ) (i : Fin D) : Lin Q D := Sum.elim (fun q => c q i) fun _ => 0

/-- lines 418-422 -/
def secondMoment (c : Fin Q → Fin D → ℤ) (i j : Fin D) : Lin Q D := Sum.elim (fun q => c q i * c q j) fun _ => 0

/-- `sum(symbolic_pdfs)` (line 411) -/
def zerothMoment : Lin Q D := Sum.elim (fun _ => 1) fun _ => 0

/-- `for subexpression in subexpressions: pdf_sum = pdf_sum.subs(...)` (lines 438-439), from axis `i` on -/
def substituteAll (e : Lin Q D) (i : ℕ) : List (Finset (LinSym Q D)) → Lin Q D
  | [] => e
  | T :: rest => substituteAll (if h : i < D then e.subs T (.inr ⟨i, h⟩) else e) (i + 1) rest

/-- `get_equations_for_zeroth_and_first_order_moment` (lines 383-452) -/
def momentEquations (c : Fin Q → Fin D → ℤ) : Except PyErr (MomentEquations Q D) :=
  match (List.finRange D).mapM fun i => (firstMoment c i).plusTerms with
  | .error e => .error e
  | .ok plus =>
    let sub := (sharedTerms [] plus).getD []
    .ok { subexpressions := sub
          zeroth := substituteAll zerothMoment 0 sub
          first := fun i => match sub[(i : ℕ)]? with
            | some T => (firstMoment c i).subs T (.inr i)
            | none => firstMoment c i
          second := secondMoment c }

namespace Lin

variable {R : Type} [CommRing R]

/-- value of an expression -/
def eval (env : LinSym Q D → R) (e : Lin Q D) : R := ∑ s, (e s : R) * env s

end Lin

namespace MomentEquations

variable {R : Type} [CommRing R]

/-- execution of the subexpression assignments `vel_iTerm = ...` one after the other -/
def runSubexpressions (env : LinSym Q D → R) (i : ℕ) : List (Finset (LinSym Q D)) → LinSym Q D → R
  | [] => env
  | T :: rest =>
    runSubexpressions (fun
      | .inl q => env (.inl q)
      | .inr j => if (j : ℕ) = i then (Lin.sumOf T).eval env else env (.inr j)) (i + 1) rest

/-- the environment in which the main assignments are evaluated; `junk` are the values of the `vel_iTerm` symbols before
they are assigned -/
def env (m : MomentEquations Q D) (junk : Fin D → R) (f : Fin Q → R) : LinSym Q D → R :=
  runSubexpressions (Sum.elim f junk) 0 m.subexpressions

end MomentEquations

end Lbm
