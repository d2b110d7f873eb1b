/-
Model of `CentralMomentsToCumulantsByGeneratingFunc` (`moment_transforms/cumulanttransforms.py`): symbolic differentiation
of the generating functions, substitution of the statistical quantities, and the constructor.

Wave numbers, velocities and derivatives of the unknown function are leaves of the expressions. `sympy` identifies mixed
derivatives in different order, so a derivative is given by its multi-index. Polynomials have integer coefficients. The
sort order of exponent tuples (which only orders assignments that do not read each other) and the simplifications applied
afterwards are not modelled.
-/
import Verif.Cumulants
import Verif.Chimera
import Verif.Collision
import Mathlib.Data.Fintype.Pi

namespace Lbm
namespace CumulantTransform

variable {D : ℕ}

/-- expressions that occur while differentiating the generating functions -/
inductive GExpr (D : ℕ) where
  | const (n : ℤ)
  /-- `WAVE_NUMBER_SYMBOLS[i]` (`cumulanttransforms.py:24`) -/
  | wave (i : Fin D)
  /-- `equilibrium_velocity[i]` -/
  | vel (i : Fin D)
  /-- `Derivative` of the unknown function (`K` or `C`) of the wave numbers; the function itself for the index 0 -/
  | fn (index : Fin D → ℕ)
  | add (a b : GExpr D)
  | sub (a b : GExpr D)
  | mul (a b : GExpr D)
  | log (a : GExpr D)
  | inv (a : GExpr D)
  | exp (a : GExpr D)

namespace GExpr

/-- `.diff(wave_i)` of sympy -/
def diff (i : Fin D) : GExpr D → GExpr D
  | const _ => const 0
  | wave j => if i = j then const 1 else const 0
  | vel _ => const 0
  | fn index => fn fun k => index k + if k = i then 1 else 0
  | add a b => add (diff i a) (diff i b)
  | sub a b => sub (diff i a) (diff i b)
  | mul a b => add (mul (diff i a) b) (mul a (diff i b))
  | log a => mul (inv a) (diff i a)
  | inv a => mul (const (-1)) (mul (mul (inv a) (inv a)) (diff i a))
  | exp a => mul (exp a) (diff i a)

/-- multi-indices of the derivatives, `atoms(sp.Derivative)` and the function itself
(`cumulanttransforms.py:169`, `cumulanttransforms.py:198`) -/
def reads : GExpr D → List (Fin D → ℕ)
  | const _ | wave _ | vel _ => []
  | fn index => [index]
  | add a b | sub a b | mul a b => a.reads ++ b.reads
  | log a | inv a | exp a => a.reads

/-- value after the substitutions (`cumulanttransforms.py:170-178`, `cumulanttransforms.py:200-213`): derivatives by the
values `v` of the symbols, wave numbers by 0 -/
noncomputable def value (u : Fin D → ℝ) (v : (Fin D → ℕ) → ℝ) : GExpr D → ℝ
  | const n => n
  | wave _ => 0
  | vel i => u i
  | fn index => v index
  | add a b => a.value u v + b.value u v
  | sub a b => a.value u v - b.value u v
  | mul a b => a.value u v * b.value u v
  | log a => Real.log (a.value u v)
  | inv a => (a.value u v)⁻¹
  | exp a => Real.exp (a.value u v)

/-- `sum(w * u for w, u in zip(wave_numbers, u_symbols))` -/
def drift : GExpr D := (List.finRange D).foldl (fun e i => add e (mul (wave i) (vel i))) (const 0)

end GExpr

open GExpr

/-- `.diff(*diff_args)` (`cumulanttransforms.py:166-167`, `cumulanttransforms.py:195-196`) -/
def differentiate (e : GExpr D) (index : Fin D → ℕ) : GExpr D := (partitionList index).foldl (fun e i => diff i e) e

/-- `C` of `cumulant_from_central_moments` (`cumulanttransforms.py:164`) -/
def cumulantFunction : GExpr D := add drift (log (fn 0))

/-- `K` of `central_moment_from_cumulants` (`cumulanttransforms.py:192-193`) -/
def momentFunction : GExpr D := exp (sub (fn 0) drift)

/-- `cumulant_from_central_moments` (`cumulanttransforms.py:156-181`); `kappa` are the values of the central moments -/
noncomputable def cumulantFromCentralMoments (rho : ℝ) (u : Fin D → ℝ) (kappa : (Fin D → ℕ) → ℝ) (index : Fin D → ℕ) : ℝ :=
  rho * (differentiate cumulantFunction index).value u kappa

/-- `central_moment_from_cumulants` (`cumulanttransforms.py:183-215`); `c` are the values of the monomial cumulants -/
noncomputable def centralMomentFromCumulants (rho : ℝ) (u : Fin D → ℝ) (c : (Fin D → ℕ) → ℝ) (index : Fin D → ℕ) : ℝ :=
  (differentiate momentFunction index).value u fun i => c i / rho

/-- `_contained_moments` (`cumulanttransforms.py:85-87`) -/
def contained (m : List ℕ) : List (List ℕ) := pyProduct (m.map fun i => List.range (i + 1))

/-- `compute_required_central_moments` before the assertion (`cumulanttransforms.py:84-94`), as a list without duplicates -/
def requiredCentralMoments (D : ℕ) (exponents : List (List ℕ)) : List (List ℕ) :=
  ((momentsUpToOrder 1 D).getD [] ++ exponents.flatMap contained).dedup

/-- coefficient of a monomial; if several terms agree in the first components, which is not the case for polynomials in the
first `dim` symbols, the one that counts depends on sympy's order of the terms -/
def coefficient (e : List ℕ) (p : PExpr) : ℤ :=
  match p.expand.find? fun t => t.2.take e.length == e with
  | some t => t.1
  | none => 0

/-- `monomial_to_polynomial_transformation_matrix` (`moments.py:572-596`) for as many monomials as polynomials -/
def monoToPoly (K : Type) [Field K] (Q : ℕ) (exponents : List (List ℕ)) (polys : List PExpr) : Matrix (Fin Q) (Fin Q) K :=
  fun i j => ((coefficient (exponents.getD j []) (polys.getD i 0) : ℤ) : K)

/-- what the constructor stores -/
structure Transform (Q : ℕ) where
  exponents : List (List ℕ)
  required : List (List ℕ)
  monoToPoly : Matrix (Fin Q) (Fin Q) ℝ
  polyToMono : Matrix (Fin Q) (Fin Q) ℝ

/-- the constructor for given polynomials (`cumulanttransforms.py:46-76`, `abstractmomenttransform.py:60-74`) -/
noncomputable def construct (D Q : ℕ) (polys : List PExpr) : Except PyErr (Transform Q) :=
  let exponents := Chimera.extractMonomials D polys
  if exponents.length ≠ Q then .error .valueError
  else if polys.length ≠ Q then .error .valueError
  else
    let required := requiredCentralMoments D exponents
    if required.length ≠ Q then .error .assertion
    else
      let P := monoToPoly ℝ Q exponents polys
      match MomentMethod.pyInv P with
      | .ok P' => .ok { exponents, required, monoToPoly := P, polyToMono := P' }
      | .error e => .error e

/-- components of an exponent tuple -/
def toIndex (D : ℕ) (e : List ℕ) : Fin D → ℕ := fun i => e.getD i 0

/-- `forward_transform` (`cumulanttransforms.py:96-124`): polynomial cumulants from the values of the monomial central
moments -/
noncomputable def forwardTransform {Q : ℕ} (D : ℕ) (t : Transform Q) (rho : ℝ) (u : Fin D → ℝ) (kappa : List ℕ → ℝ) :
    Fin Q → ℝ :=
  t.monoToPoly.mulVec fun j =>
    cumulantFromCentralMoments rho u (fun i => kappa (List.ofFn i)) (toIndex D (t.exponents.getD j []))

/-- values of the monomial cumulant symbols after their assignments (`cumulanttransforms.py:135-136`); `free` are the values
of symbols that are not assigned -/
noncomputable def monomialCumulant {Q : ℕ} (t : Transform Q) (free : List ℕ → ℝ) (c : Fin Q → ℝ) (e : List ℕ) : ℝ :=
  if h : t.exponents.idxOf e < Q then t.polyToMono.mulVec c ⟨t.exponents.idxOf e, h⟩ else free e

/-- `backward_transform` (`cumulanttransforms.py:126-154`): value assigned to the central moment `e`, for the tuples `e` in
`t.required` -/
noncomputable def backwardTransform {Q : ℕ} (D : ℕ) (t : Transform Q) (rho : ℝ) (u : Fin D → ℝ) (free : List ℕ → ℝ)
    (c : Fin Q → ℝ) (e : List ℕ) : ℝ :=
  centralMomentFromCumulants rho u (fun i => monomialCumulant t free c (List.ofFn i)) (toIndex D e)

end CumulantTransform
end Lbm
