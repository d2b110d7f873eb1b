import Verif.Collision
import Mathlib.RingTheory.Derivation.Basic
import Mathlib.Algebra.MvPolynomial.CommRing
import Mathlib.RingTheory.Localization.FractionRing
import Mathlib.RingTheory.MvPolynomial.Basic
import Mathlib.Data.Nat.Factorial.Basic
import Mathlib.Algebra.Order.Antidiag.Prod
import Mathlib.Algebra.BigOperators.NatAntidiagonal

/-!
# Chapman–Enskog analysis

Model of `/repo/src/lbmpy/chapman_enskog/chapman_enskog.py`.

Symbolic expressions with `Diff` nodes are modelled by their values: fields are elements of a commutative algebra `A` over
the field `K` of constants (numbers and relaxation rates), the derivatives are derivations of `A`.  The expansion of the
lattice Boltzmann equation is a list of terms.  The viscous stress tensor on which the public functions work is a
polynomial in the density, the velocity and their first derivatives.  The pattern matching by which
`match_to_navier_stokes` finds the pressure and the stress is in `NavierStokesMatch.lean`.  Not modelled: sympy's normal forms.
-/

namespace Lbm
namespace ChapmanEnskog

open scoped BigOperators
open Matrix

/-! ### The Taylor expanded equation -/

/-- The two symbols of the equation, `f` and `\Omega f`; chapman_enskog.py:483-484. -/
inductive Pdf where
  | f | collided
  deriving DecidableEq

/-- The value of a symbol. -/
def Pdf.pick {α : Type} (f collided : α) : Pdf → α
  | .f => f
  | .collided => collided

/-- A product `coef * dt ** dt * (d/dt + c.grad) ** op` applied to a symbol. -/
structure Term where
  coef : ℚ
  dt : ℕ
  op : ℕ
  pdf : Pdf
  deriving DecidableEq

/-- `taylor_operator - dt * collided_pdf` applied to the populations; chapman_enskog.py:489-494. -/
def baseTerms (n : ℕ) : List Term :=
  (List.range n).map (fun k => ⟨1 / ((k + 1).factorial : ℚ), k + 1, k + 1, .f⟩) ++ [⟨-1, 1, 0, .collided⟩]

/-- Minus the operator `dt / 2 * (d/dt + c.grad)` applied to the terms; chapman_enskog.py:497-501. -/
def shiftTerms (l : List Term) : List Term := l.map fun t => ⟨-(t.coef / 2), t.dt + 1, t.op + 1, t.pdf⟩

/-- `get_taylor_expanded_lb_equation`: `dt ** (taylor_order + 1)` is replaced by 0; chapman_enskog.py:477-506. -/
def taylorEquation (n : ℕ) (shift : Bool) : List Term :=
  (if shift then baseTerms n ++ shiftTerms (baseTerms n) else baseTerms n).filter fun t => t.dt ≠ n + 1

section
variable {K A : Type} [Field K] [CommRing A] [Algebra K A]

/-- The value of the equation at `dt = 1` with the derivative along the characteristic `d`; chapman_enskog.py:505. -/
def applyTerms (d : A →ₗ[K] A) (f collided : A) (l : List Term) : A :=
  (l.map fun t => (t.coef : K) • (d^[t.op]) (t.pdf.pick f collided)).sum

/-! ### The ansatz -/

/-- A pdf symbol replaced by `sum(eps ** i * symbol_i for i in range(start, stop))`: the coefficients by power of `eps`;
chapman_enskog.py:540-549. -/
def expandPdf (start stop : ℕ) (g : ℕ → A) (i : ℕ) : A := if start ≤ i ∧ i < stop then g i else 0

/-- A derivative replaced by `sum(eps ** i * Diff(superscript=i) for i in range(start, stop))`; derivative.py:6-12. -/
def expandDiff (start stop : ℕ) (d : ℕ → (A →ₗ[K] A)) (i : ℕ) : A →ₗ[K] A := if start ≤ i ∧ i < stop then d i else 0

/-- One application of an expanded operator to expanded populations, by power of `eps`. -/
def applyExpanded (d : ℕ → (A →ₗ[K] A)) (g : ℕ → A) (n : ℕ) : A := ∑ p ∈ Finset.antidiagonal n, d p.1 (g p.2)

/-- The derivative along a velocity, by power of `eps`: the time derivative has the orders `range(*time)`, the spatial ones
`range(*space)`; chapman_enskog.py:525-533. -/
def characteristic {D : ℕ} (time space : ℕ × ℕ) (t : ℕ → (A →ₗ[K] A)) (x : ℕ → Fin D → (A →ₗ[K] A)) (c : Fin D → K)
    (i : ℕ) : A →ₗ[K] A :=
  expandDiff time.1 time.2 t i + ∑ a, c a • expandDiff space.1 space.2 (fun k => x k a) i

/-- `chapman_enskog_ansatz`: the coefficient of `eps ** n`; chapman_enskog.py:509-553. -/
def ansatz (l : List Term) (d : ℕ → (A →ₗ[K] A)) (f collided : ℕ → A) (n : ℕ) : A :=
  (l.map fun t => (t.coef : K) •
    ((applyExpanded d)^[t.op]) (t.pdf.pick (expandPdf 0 3 f) (expandPdf 1 3 collided)) n).sum

/-- The derivatives that occur in the analysis: two time scales, one spatial scale (default arguments of
`chapman_enskog_ansatz`); chapman_enskog.py:509. -/
structure Derivatives (K A : Type) [Field K] [CommRing A] [Algebra K A] (D : ℕ) where
  t1 : Derivation K A A
  t2 : Derivation K A A
  x : Fin D → Derivation K A A

namespace Derivatives
variable {D : ℕ}

/-- The time derivative of superscript `k`. -/
def time (d : Derivatives K A D) : ℕ → (A →ₗ[K] A)
  | 1 => d.t1.toLinearMap
  | 2 => d.t2.toLinearMap
  | _ => 0

/-- The spatial derivative of superscript `k`. -/
def space (d : Derivatives K A D) : ℕ → Fin D → (A →ₗ[K] A)
  | 1 => fun a => (d.x a).toLinearMap
  | _ => fun _ => 0

end Derivatives

variable {D Q : ℕ}

/-- `equations_by_order` for the velocity `c`; chapman_enskog.py:29-30. -/
def equationsByOrder (d : Derivatives K A D) (c : Fin D → K) (f collided : ℕ → A) (n : ℕ) : A :=
  ansatz (taylorEquation 2 true) (characteristic (1, 3) (1, 2) d.time d.space c) f collided n

/-! ### Moments -/

/-- `discrete_moment` of populations with values in the algebra, `φ q` is the monomial at velocity `q`;
chapman_enskog.py:255, moments.py:382-414. -/
def moment (φ : Fin Q → K) (g : Fin Q → A) : A := ∑ q, φ q • g q

/-- `tuple(moment2pdf * moment_symbols)` of `get_post_collision_moment`: moments of the populations are multiplied by
`-rr ** exponent` and transformed back; chapman_enskog.py:258-281. -/
noncomputable def postCollision (M : Matrix (Fin Q) (Fin Q) K) (rates : Fin Q → K) (exponent : ℕ) (g : Fin Q → A)
    (q : Fin Q) : A :=
  ∑ i, M⁻¹ q i • (-(rates i) ^ exponent • moment (M i) g)

/-- The moment `φ` of the equation of order `n`, `_take_and_insert_moments` of `equations_by_order[n] * moment`, before
the equilibrium moments are inserted; chapman_enskog.py:45-53, 81-84, 329-336. -/
noncomputable def momentEquation (d : Derivatives K A D) (c : Fin Q → Fin D → K) (M : Matrix (Fin Q) (Fin Q) K)
    (rates : Fin Q → K) (f : ℕ → Fin Q → A) (n : ℕ) (φ : Fin Q → K) : A :=
  moment φ fun q => equationsByOrder d (c q) (fun k => f k q) (fun k => postCollision M rates 1 (f k) q) n

end

/-! ### The viscous stress tensor and the functions of the class -/

/-- The symbols of a stress tensor: `rho`, `u_i`, `Diff(u_i, j)` and `Diff(rho, i)`. -/
inductive Sym (D : ℕ) where
  | rho
  | u (i : Fin D)
  | du (i j : Fin D)
  | drho (i : Fin D)
  deriving DecidableEq

namespace Sym
variable {D : ℕ}

/-- A symbol counted by `count_vars`: a velocity or a derivative of one; chapman_enskog.py:441-458. -/
def isU : Sym D → Bool
  | u _ => true
  | du _ _ => true
  | _ => false

def isDrho : Sym D → Bool
  | drho _ => true
  | _ => false

end Sym

/-- An expanded expression: products with their numerical coefficient. -/
abbrev Expanded (K : Type) (D : ℕ) := List (K × List (Sym D))

section
variable {K : Type} [Field K] {D : ℕ}

/-- `expr.args`: the summands of a sum, but the factors of a single product. -/
def Expanded.args : Expanded K D → Expanded K D
  | [(k, l)] => (k, []) :: l.map fun s => (1, [s])
  | e => e

/-- `remove_higher_order_u` with `order=1`; chapman_enskog.py:461-462. -/
def removeHigherOrderU (e : Expanded K D) : Expanded K D := e.args.filter fun p => p.2.countP Sym.isU ≤ 1

/-- `remove_error_terms` of an entry; chapman_enskog.py:465-472. -/
def removeErrorTerms (e : Expanded K D) : Expanded K D :=
  removeHigherOrderU (e.filter fun p => p.2.countP Sym.isDrho = 0)

/-- The polynomial of an expanded expression. -/
noncomputable def Expanded.toPoly (e : Expanded K D) : MvPolynomial (Sym D) K :=
  (e.map fun p => MvPolynomial.C p.1 * (p.2.map MvPolynomial.X).prod).sum

/-- `_sigmaWithoutErrorTerms`; chapman_enskog.py:66. -/
noncomputable def sigmaWithoutErrors (sigma : Fin D → Fin D → Expanded K D) (i j : Fin D) : MvPolynomial (Sym D) K :=
  (removeErrorTerms (sigma i j)).toPoly

/-- sympy's `expr.coeff(s)`: the factor of the first power of the symbol. -/
noncomputable def coeffOf (p : MvPolynomial (Sym D) K) (s : Sym D) : MvPolynomial (Sym D) K :=
  ∑ m ∈ p.support.filter (fun m => m s = 1), MvPolynomial.monomial (m.erase s) (p.coeff m)

/-- sympy's `expr.subs(s, 0)` -/
noncomputable def setZero (p : MvPolynomial (Sym D) K) (s : Sym D) : MvPolynomial (Sym D) K :=
  MvPolynomial.aeval (fun t => if t = s then 0 else MvPolynomial.X t) p

/-- Values of the functions of the class: quotients of polynomials. -/
abbrev Ratio (K : Type) [Field K] (D : ℕ) := FractionRing (MvPolynomial (Sym D) K)

noncomputable def toRatio (p : MvPolynomial (Sym D) K) : Ratio K D := algebraMap _ _ p

open Classical in
/-- `get_shear_viscosity_candidates`; chapman_enskog.py:105-110. -/
noncomputable def shearCandidates (s : Fin D → Fin D → MvPolynomial (Sym D) K) : Finset (Ratio K D) :=
  (Finset.univ.filter fun p : Fin D × Fin D => p.1 < p.2).image fun p =>
    -(toRatio (s p.1 p.2) / toRatio (MvPolynomial.X (.du p.1 p.2) + MvPolynomial.X (.du p.2 p.1)))

open Classical in
/-- The element of a set with one element; python `candidates.pop()` behind the test of the length. -/
noncomputable def onlyElement {α : Type} (s : Finset α) : Except PyErr α :=
  if h : ∃ x, s = {x} then .ok h.choose else .error .valueError

/-- `get_dynamic_viscosity`; chapman_enskog.py:92-97. -/
noncomputable def dynamicViscosity (s : Fin D → Fin D → MvPolynomial (Sym D) K) : Except PyErr (Ratio K D) :=
  onlyElement (shearCandidates s)

/-- `get_kinematic_viscosity`; chapman_enskog.py:99-103. -/
noncomputable def kinematicViscosity (compressible : Bool) (s : Fin D → Fin D → MvPolynomial (Sym D) K) :
    Except PyErr (Ratio K D) :=
  (dynamicViscosity s).map fun v => if compressible then v / toRatio (MvPolynomial.X .rho) else v

/-- The symbols `bulk_term.atoms(Diff)`. -/
noncomputable def diffAtoms (p : MvPolynomial (Sym D) K) : Finset (Fin D × Fin D) :=
  Finset.univ.filter fun ij => Sym.du ij.1 ij.2 ∈ p.vars

/-- `bulk_term` of one axis; the viscosity is a polynomial here; chapman_enskog.py:148-149. -/
noncomputable def bulkTerm (s : Fin D → Fin D → MvPolynomial (Sym D) K) (viscosity : MvPolynomial (Sym D) K) (i : Fin D) :
    MvPolynomial (Sym D) K :=
  s i i + 2 * viscosity * MvPolynomial.X (.du i i)

open Classical in
/-- `get_bulk_viscosity_candidates`; the loop over the derivatives collects the coefficient of each, so far as every
product has at most one derivative; chapman_enskog.py:141-158. -/
noncomputable def bulkCandidates (s : Fin D → Fin D → MvPolynomial (Sym D) K) (viscosity : MvPolynomial (Sym D) K) :
    Finset (MvPolynomial (Sym D) K) :=
  if ∀ i, (diffAtoms (bulkTerm s viscosity i)).toList.foldl (fun p ij => setZero p (.du ij.1 ij.2))
      (bulkTerm s viscosity i) = 0 then
    let result := Finset.univ.biUnion fun i : Fin D =>
      (diffAtoms (bulkTerm s viscosity i)).image fun ij => coeffOf (bulkTerm s viscosity i) (.du ij.1 ij.2)
    if result.card = 0 then {0} else result
  else ∅

/-- `get_bulk_viscosity` with the dynamic viscosity given as polynomial; chapman_enskog.py:160-167. -/
noncomputable def bulkViscosity (s : Fin D → Fin D → MvPolynomial (Sym D) K) (viscosity : MvPolynomial (Sym D) K) :
    Except PyErr (MvPolynomial (Sym D) K) :=
  (onlyElement (bulkCandidates s viscosity)).map fun v => v + MvPolynomial.C (2 / 3) * viscosity

open Classical in
/-- `does_approximate_navier_stokes`: the set of the expressions that should vanish.  The list of the bulk candidates is
taken from a set; all of them are compared with the first; chapman_enskog.py:112-139. -/
noncomputable def nsConditions (s : Fin (D + 2) → Fin (D + 2) → MvPolynomial (Sym (D + 2)) K) :
    Set (MvPolynomial (Sym (D + 2)) K) :=
  let reference := coeffOf (s 0 1) (.du 0 1)
  let cross : Fin (D + 2) × Fin (D + 2) → MvPolynomial (Sym (D + 2)) K := fun p =>
    setZero (setZero (s p.1 p.2) (.du p.1 p.2)) (.du p.2 p.1)
  {0} ∪ {e | ∃ i j, i < j ∧ e = coeffOf (s i j) (.du i j) - reference}
    ∪ {e | ∃ i j k, i < j ∧ e = coeffOf (cross (i, j)) (.du k k)}
    ∪ {e | ∃ i j, i < j ∧ e = (List.finRange (D + 2)).foldl (fun p k => setZero p (.du k k)) (cross (i, j))}
    ∪ {e | ∃ b ∈ (bulkCandidates s (-reference)).toList.tail, e = (bulkCandidates s (-reference)).toList.headD 0 - b}

/-- `relaxation_rate_from_kinematic_viscosity` for a viscosity `a / ω + b` with one symbol `ω`: `sp.solve` for it. The
solver returns no solution, so that the access of the first one fails, if there is none; chapman_enskog.py:169-172. -/
def rateFromViscosity [DecidableEq K] (a b nu : K) : Except PyErr K :=
  if nu - b = 0 ∨ a = 0 then .error .indexError else .ok (a / (nu - b))

end

end ChapmanEnskog
end Lbm
