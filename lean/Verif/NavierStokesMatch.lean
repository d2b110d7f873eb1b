import Verif.StencilCtor
import Mathlib.Algebra.MvPolynomial.CommRing
import Mathlib.Tactic.DeriveFintype
import Mathlib.Data.Fintype.Option

/-!
# Matching conservation equations with the Navier–Stokes equations

Model of `match_to_navier_stokes` (`/repo/src/lbmpy/chapman_enskog/chapman_enskog.py:556-616`).

An equation is the polynomial that is left after `diff_simplify` (lines 561-564): its variables are the density, the velocities, the
symbols of moments (`CeMoment`) and first derivatives of these; the ring of coefficients contains the constants, such as `epsilon` and
relaxation rates.  Second derivatives do not occur in the conservation equations the package makes and are not modelled.  A set of
sympy expressions has no order: the order in which `atoms(Diff)` is visited is a parameter.
-/

namespace Lbm
namespace NavierStokesMatch

open MvPolynomial

/-- `rho`, `u_i` and symbols of moments -/
inductive Base (D : ℕ) (μ : Type) where
  | rho
  | u (i : Fin D)
  | mom (m : μ)
  deriving DecidableEq, Fintype

/-- `Diff(b, target)`; the target is an axis or `t` (`none`) -/
abbrev Diff (D : ℕ) (μ : Type) := Base D μ × Option (Fin D)

/-- the variables of the equations -/
inductive Sym (D : ℕ) (μ : Type) where
  | base (b : Base D μ)
  | diff (d : Diff D μ)
  deriving DecidableEq

/-- does the symbol contain a `CeMoment`? -/
def Sym.hasMoment {D : ℕ} {μ : Type} : Sym D μ → Bool
  | .base (.mom _) => true
  | .diff (.mom _, _) => true
  | _ => false

variable {K μ : Type} [Field K] [DecidableEq μ] [Fintype μ] {D : ℕ}

/-- an equation after `diff_simplify` -/
abbrev Poly (K : Type) [Field K] (D : ℕ) (μ : Type) := MvPolynomial (Sym D μ) K

/-- `expand_diff_products(Diff(product, target))` -/
noncomputable def diffProduct (t : Option (Fin D)) : List (Base D μ) → Poly K D μ
  | [] => 0
  | b :: l => X (.diff (b, t)) * (l.map fun b => X (.base b)).prod + X (.base b) * diffProduct t l

/-- `factor`: the density or 1 (`chapman_enskog.py:569,576`) -/
def factor (compressible : Bool) : List (Base D μ) := if compressible then [.rho] else []

open Classical in
/-- `u[0] * Diff(rho, 0) in continuity_eq.args` (`chapman_enskog.py:568`): a summand, so that there must be at least two -/
noncomputable def isCompressible (cont : Poly K (D + 1) μ) : Bool :=
  decide (cont.coeff (Finsupp.single (.base (.u 0)) 1 + Finsupp.single (.diff (.rho, some 0)) 1) = 1 ∧ 2 ≤ cont.support.card)

/-- `ref_continuity_eq` (`chapman_enskog.py:570`) -/
noncomputable def refContinuity (compressible : Bool) : Poly K D μ :=
  X (.diff (.rho, none)) + ∑ i, diffProduct (some i) (factor compressible ++ [.u i])

/-- `ref` (`chapman_enskog.py:577`) -/
noncomputable def refMomentum (compressible : Bool) (i : Fin D) : Poly K D μ :=
  diffProduct none (factor compressible ++ [.u i]) + ∑ j, diffProduct (some j) (factor compressible ++ [.u i, .u j])

/-- a pair `(coefficient, arg)` of the pressure: the coefficient is a number times a product -/
abbrev PressureTerm (K : Type) (D : ℕ) (μ : Type) := (K × (Sym D μ →₀ ℕ)) × Base D μ

open Classical in
/-- `candidate_list`: derivatives along axis `i` in a product (`chapman_enskog.py:589`) -/
noncomputable def candidates (i : Fin D) (m : Sym D μ →₀ ℕ) : Finset (Base D μ) :=
  Finset.univ.filter fun b => Sym.diff (b, some i) ∈ m.support

open Classical in
/-- `coefficient_arg_sets[i]` (`chapman_enskog.py:582-592`) -/
noncomputable def coefficientArgSet (p : Poly K D μ) (i : Fin D) : Finset (PressureTerm K D μ) :=
  (p.support.filter fun m => (∀ s ∈ m.support, s.hasMoment = false) ∧ (candidates i m).card = 1).biUnion fun m =>
    (candidates i m).image fun b => ((p.coeff m, m - Finsupp.single (.diff (b, some i)) 1), b)

/-- `set.intersection(*coefficient_arg_sets)` (`chapman_enskog.py:593`) -/
noncomputable def pressureTerms (p : Fin (D + 1) → Poly K (D + 1) μ) : Finset (PressureTerm K (D + 1) μ) :=
  open Classical in (coefficientArgSet (p 0) 0).filter fun x => ∀ i, x ∈ coefficientArgSet (p i) i

/-- `coeff * x` for a pair of the pressure -/
noncomputable def PressureTerm.times (x : PressureTerm K D μ) (y : Poly K D μ) : Poly K D μ := monomial x.1.2 x.1.1 * y

/-- sympy's `expr.coeff(s)` -/
noncomputable def coeffOf (p : Poly K D μ) (s : Sym D μ) : Poly K D μ :=
  ∑ m ∈ p.support.filter (fun m => m s = 1), monomial (m.erase s) (p.coeff m)

/-- sympy's `expr.subs(s, 0)` -/
noncomputable def setZero (p : Poly K D μ) (s : Sym D μ) : Poly K D μ :=
  ∑ m ∈ p.support.filter (fun m => m s = 0), monomial m (p.coeff m)

open Classical in
/-- `atoms(Diff)` -/
noncomputable def diffs (p : Poly K D μ) : Finset (Diff D μ) :=
  Finset.univ.filter fun d => ∃ m ∈ p.support, m (.diff d) ≠ 0

/-- the loop over the derivatives for one row of `sigma_` (`chapman_enskog.py:599-602`); an index that is the symbol `t` raises -/
noncomputable def collect : List (Diff D μ) → (Fin D → Poly K D μ) × Poly K D μ → Except PyErr ((Fin D → Poly K D μ) × Poly K D μ)
  | [], st => .ok st
  | (_, none) :: _, _ => .error .indexError
  | (b, some j) :: l, (sigma, eq) =>
    collect l (Function.update sigma j (sigma j + coeffOf eq (.diff (b, some j)) * X (.base b)), setZero eq (.diff (b, some j)))

/-- the result: `compressible, pressure, sigma` -/
structure Matched (K : Type) [Field K] (D : ℕ) (μ : Type) where
  compressible : Bool
  pressure : Finset (PressureTerm K D μ)
  sigma : Fin D → Fin D → Poly K D μ

/-- `eq_without_pressure` (`chapman_enskog.py:598`) -/
noncomputable def withoutPressure (p : Fin (D + 1) → Poly K (D + 1) μ) (i : Fin (D + 1)) : Poly K (D + 1) μ :=
  p i - ∑ x ∈ pressureTerms p, x.times (X (.diff (x.2, some i)))

/-- the rows of `sigma_` with the error terms (`chapman_enskog.py:595-604`) -/
noncomputable def rows (enum : Finset (Diff (D + 1) μ) → List (Diff (D + 1) μ)) (p : Fin (D + 1) → Poly K (D + 1) μ)
    (i : Fin (D + 1)) : Except PyErr ((Fin (D + 1) → Poly K (D + 1) μ) × Poly K (D + 1) μ) :=
  collect (enum (diffs (withoutPressure p i))) (fun _ => 0, withoutPressure p i)

open Classical in
/-- the part behind the subtraction of the reference (`chapman_enskog.py:580-616`); `p` are the `shear_and_pressure_eqs`.  A row that
raises is an error, which of several does not matter. -/
noncomputable def matchWith (enum : Finset (Diff (D + 1) μ) → List (Diff (D + 1) μ)) (compressible : Bool) (cont : Poly K (D + 1) μ)
    (p : Fin (D + 1) → Poly K (D + 1) μ) : Except PyErr (Matched K (D + 1) μ) :=
  -- `assert eq.func == sp.Add` (line 585)
  if ∃ i, (p i).support.card < 2 then .error .assertion
  else if ∃ i, ∃ e, rows enum p i = .error e then .error .indexError
  else
    let row : Fin (D + 1) → (Fin (D + 1) → Poly K (D + 1) μ) × Poly K (D + 1) μ := fun i => match rows enum p i with
      | .ok r => r
      | .error _ => (fun _ => 0, 0)
    -- `assert et == 0` (line 614)
    if refContinuity compressible - cont = 0 ∧ ∀ i, (row i).2 = 0 then .ok ⟨compressible, pressureTerms p, fun i => (row i).1⟩
    else .error .assertion

/-- `match_to_navier_stokes` (`chapman_enskog.py:556-616`); `enum` is the order in which sets are visited -/
noncomputable def matchNavierStokes (enum : Finset (Diff (D + 1) μ) → List (Diff (D + 1) μ)) (cont : Poly K (D + 1) μ)
    (moms : Fin (D + 1) → Poly K (D + 1) μ) : Except PyErr (Matched K (D + 1) μ) :=
  matchWith enum (isCompressible cont) cont fun i => moms i - refMomentum (isCompressible cont) i

end NavierStokesMatch
end Lbm
