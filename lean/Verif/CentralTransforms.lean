/-
Model of the four transforms between populations and polynomial central moments, constructors and both directions
(`moment_transforms/centralmomenttransforms.py:24-1001`), with the removal of aliases (`moments.py:598-625`) and the shift by the
background distribution, without simplifications.

Assignments are executed: the result are the values of the main assignments. Matrices of expressions in the velocity are
functions of the velocity, their inverses are the inverses for the velocity at hand. The equations of the conserved quantities, which
two of the transforms pass on, are not part of the model; neither is `return_monomials`.
-/
import Verif.Chimera
import Verif.CentralMoments
import Verif.CumulantMethod

set_option linter.unusedSectionVars false

namespace Lbm
namespace CentralTransforms

open Matrix CentralMoments Chimera

variable {K : Type} [Field K] {D : ℕ}

/-- `background_distribution`: its raw moments and its central moments about a velocity, for exponent tuples
(`_monomial_raw_moment`, `_monomial_central_moment`, `abstract_equilibrium.py:197-205`). Without background all are 0
(`rawmomenttransforms.py:45-50`, `centralmomenttransforms.py:50-55`). -/
structure Background (K : Type) (D : ℕ) where
  raw : List ℕ → K
  central : (Fin D → K) → List ℕ → K

/-- `central_moment` of a polynomial (`abstract_equilibrium.py:135-154`) -/
def Background.centralMoment (b : Background K D) (u : Fin D → K) (p : MPoly ℤ) : K :=
  (p.map fun t => (t.1 : K) * b.central u t.2).sum

/-- value of a monomial, `moment_matrix` (`moments.py:427-431`); further entries of the tuple are not used -/
def evM (e : List ℕ) (v : Fin D → K) : K := ∏ a, v a ^ e.getD a 0

/-- value of a polynomial -/
def evP (p : MPoly ℤ) (v : Fin D → K) : K := (p.map fun t => (t.1 : K) * evM t.2 v).sum

/-- `extract_monomials` (`moments.py:551-569`) of polynomials in exponent representation -/
def extract (polys : List (MPoly ℤ)) : List (List ℕ) :=
  (polys.flatMap fun p => (p.filter fun t => t.1 ≠ 0).map Prod.snd).dedup

/-- a sum of terms as sympy stores it: like terms are collected -/
def collectTerms (p : MPoly ℤ) : MPoly ℤ := p.foldl (fun acc t => PExpr.addTerm t.1 t.2 acc) []

/-- exponent tuples of three entries: `polynomial_to_exponent_representation` without the argument `dim` (`moments.py:143-172`) -/
def pad (p : MPoly ℤ) : MPoly ℤ := p.map fun t => (t.1, t.2 ++ List.replicate (3 - t.2.length) 0)

/-- entry of `monomial_to_polynomial_transformation_matrix` (`moments.py:590-595`) -/
def coef (p : MPoly ℤ) (e : List ℕ) : ℤ :=
  match p.find? fun t => t.2 == e with
  | some t => t.1
  | none => 0

/-- `monomial_to_polynomial_transformation_matrix` (`moments.py:572-596`) -/
def monoToPoly {Q : ℕ} (exps : Fin Q → List ℕ) (polys : Fin Q → MPoly ℤ) : Matrix (Fin Q) (Fin Q) K :=
  fun i j => ((coef (polys i) (exps j) : ℤ) : K)

/-- directions as vectors -/
def velocity (st : List (List ℤ)) (q : Fin st.length) (a : Fin D) : K := (((st.get q).getD a 0 : ℤ) : K)

/-- `moment_exponents` and `mono_to_poly_matrix` -/
structure Setup (K : Type) (D Q : ℕ) where
  exps : Fin Q → List ℕ
  P : (Fin D → K) → Matrix (Fin Q) (Fin Q) K

/-- the monomials of the polynomials (`abstractmomenttransform.py:68-71`) -/
def monomials {Q : ℕ} (polys : Fin Q → MPoly ℤ) : List (List ℕ) := CumulantMethod.sortExponents (extract (List.ofFn polys))

/-- `reduced_polynomials` (`moments.py:613`), collected, as read by the next functions with three exponents each -/
def reducedPolynomials (st : List (List ℤ)) (polys : Fin st.length → MPoly ℤ) : List (MPoly ℤ) :=
  (nonAliasedPolynomials (List.ofFn polys) (monomials polys) st).map fun p => pad (collectTerms p)

/-- `reduced_monomials` (`moments.py:614`): `extract_monomials` is called without the dimension -/
def reducedMonomials (st : List (List ℤ)) (polys : Fin st.length → MPoly ℤ) : List (List ℕ) :=
  CumulantMethod.sortExponents (extract (reducedPolynomials st polys))

open Classical in
/-- first part of three of the constructors (`centralmomenttransforms.py:170-187`, `495-514`, `800-819`) with
`central_moment_reduced_monomial_to_polynomial_matrix` (`moments.py:598-623`) and with `mono_to_poly_matrix.inv()` -/
noncomputable def setup (K : Type) [Field K] (D : ℕ) (st : List (List ℤ)) (polys : Fin st.length → MPoly ℤ) :
    Except PyErr (Setup K D st.length) :=
  if (monomials polys).length ≠ st.length then
    let red := reducedPolynomials st polys
    let monos := reducedMonomials st polys
    if monos.length ≠ st.length then .error .assertion
    else
      let exps : Fin st.length → List ℕ := fun j => monos.getD j []
      match reducedMatrix (K := K) (D := D) evM exps evP polys (velocity st) (monoToPoly exps fun i => red.getD i []) with
      | .error e => .error e
      | .ok R => if ∀ u, (R u).det = 0 then .error .valueError else .ok { exps, P := R }
  else
    let exps : Fin st.length → List ℕ := fun j => (monomials polys).getD j []
    if (monoToPoly (K := K) exps polys).det = 0 then .error .valueError
    else .ok { exps, P := fun _ => monoToPoly exps polys }

/-- what the two directions compute for a velocity -/
structure Transform (K : Type) (D Q : ℕ) where
  forward : (Fin D → K) → (Fin Q → K) → Except PyErr (Fin Q → K)
  backward : (Fin D → K) → (Fin Q → K) → Except PyErr (Fin Q → K)

/-- values of the symbols of the populations -/
def pdfEnv {Q : ℕ} (f : Fin Q → K) : Sym → K
  | .pdf q => if h : q < Q then f ⟨q, h⟩ else 0
  | _ => 0

/-- values of the monomials that are read; `free` gives values to symbols that are not assigned -/
def monoEnv {Q : ℕ} (exps : Fin Q → List ℕ) (m : Fin Q → K) (free : List Char → K) : Sym → K
  | .frm n => match (List.finRange Q).find? fun j => sqName (exps j) == n with
    | some j => m j
    | none => free n
  | _ => 0

/-- the monomials by summation over the directions; the recursion ends at the dimension of the stencil, further entries of the
exponent tuples are only part of names (`rawmomenttransforms.py:297-321`, `centralmomenttransforms.py:566-590`) -/
def sums (D : ℕ) (st : List (List ℤ)) (w : ℕ → ℤ → ℕ → K) (exps : Fin st.length → List ℕ) (f : Fin st.length → K) : Fin st.length → K :=
  fun j => exec (sumChimera st w (List.ofFn fun i => (exps i).take D)) (pdfEnv f) (.to (sqName ((exps j).take D)))

/-- monomial raw moments with the background (`PdfsToMomentsByChimeraTransform.forward_transform`,
`rawmomenttransforms.py:326-328`) -/
def rawForward (D : ℕ) (st : List (List ℤ)) (b : Background K D) (exps : Fin st.length → List ℕ) (f : Fin st.length → K) :
    Fin st.length → K := fun j => sums D st rawFactor exps f j + b.raw (exps j)

/-- populations from monomial raw moments (`PdfsToMomentsByChimeraTransform.backward_transform`, `rawmomenttransforms.py:396-404`) -/
noncomputable def rawBackward (st : List (List ℤ)) (b : Background K D) (exps : Fin st.length → List ℕ) (m : Fin st.length → K) :
    Fin st.length → K :=
  (momentMatrix evM exps (velocity st) (0 : Fin D → K))⁻¹ *ᵥ fun j => m j - b.raw (exps j)

/-- components of the velocity as the direct summation reads them -/
def component (u : Fin D → K) (i : ℕ) : K := if h : i < D then u ⟨i, h⟩ else 0

/-- `FastCentralMomentTransform` (`centralmomenttransforms.py:495-667`). The equations of the backward direction are split afterwards
(`710-792`), see `FastBackward`. -/
noncomputable def fast (st : List (List ℤ)) (polys : Fin st.length → MPoly ℤ) (b : Background K D) :
    Except PyErr (Transform K D st.length) :=
  match setup K D st polys with
  | .error e => .error e
  | .ok s =>
    match setUpShiftMatrix evM s.exps (velocity (K := K) (D := D) st) with
    | .error e => .error e
    | .ok N => .ok
      { forward := fun u f => .ok fun i =>
          (s.P u *ᵥ sums D st (centralFactor (component u)) s.exps f) i + b.centralMoment u (polys i)
        backward := fun u k => .ok (((momentMatrix evM s.exps (velocity st) (0 : Fin D → K))⁻¹ * (N u)⁻¹) *ᵥ
          ((s.P u)⁻¹ *ᵥ fun i => k i - b.centralMoment u (polys i))) }

/-- `BinomialChimera` applied to monomials with given values (`centralmomenttransforms.py:251-253`, `377-378`) -/
def binomialStep {Q : ℕ} (v : Fin D → K) (exps : Fin Q → List ℕ) (free : List Char → K) (m : Fin Q → K) : Except PyErr (Fin Q → K) :=
  match binomialChimera (List.ofFn v) (List.ofFn exps) with
  | .error e => .error e
  | .ok l => .ok fun j => exec l (monoEnv exps m free) (.to (sqName (exps j)))

open Classical in
/-- `BinomialChimeraTransform` (`centralmomenttransforms.py:170-399`) -/
noncomputable def binomial (st : List (List ℤ)) (polys : Fin st.length → MPoly ℤ) (b : Background K D) (free : List Char → K) :
    Except PyErr (Transform K D st.length) :=
  match setup K D st polys with
  | .error e => .error e
  | .ok s =>
    if (momentMatrix evM s.exps (velocity st) (0 : Fin D → K)).det = 0 then .error .valueError
    else .ok
      { forward := fun u f =>
          match binomialStep (fun a => -u a) s.exps free (rawForward D st b s.exps f) with
          | .error e => .error e
          | .ok κ => .ok (s.P u *ᵥ κ)
        backward := fun u k =>
          match binomialStep u s.exps free ((s.P u)⁻¹ *ᵥ k) with
          | .error e => .error e
          | .ok m => .ok (rawBackward st b s.exps m) }

open Classical in
/-- `PdfsToCentralMomentsByShiftMatrix` (`centralmomenttransforms.py:800-1001`) -/
noncomputable def shift (st : List (List ℤ)) (polys : Fin st.length → MPoly ℤ) (b : Background K D) :
    Except PyErr (Transform K D st.length) :=
  match setup K D st polys with
  | .error e => .error e
  | .ok s =>
    if (momentMatrix evM s.exps (velocity st) (0 : Fin D → K)).det = 0 then .error .valueError
    else
      match setUpShiftMatrix evM s.exps (velocity (K := K) (D := D) st) with
      | .error e => .error e
      | .ok N => .ok
        { forward := fun u f => .ok (s.P u *ᵥ (N u *ᵥ rawForward D st b s.exps f))
          backward := fun u k => .ok (rawBackward st b s.exps ((N u)⁻¹ *ᵥ ((s.P u)⁻¹ *ᵥ k))) }

/-- `PdfsToCentralMomentsByMatrix` (`centralmomenttransforms.py:61-160`) -/
noncomputable def matrix (st : List (List ℤ)) (polys : Fin st.length → MPoly ℤ) (b : Background K D) :
    Except PyErr (Transform K D st.length) :=
  match matrixTransform (K := K) (D := D) evP polys (velocity st) with
  | .error e => .error e
  | .ok t => .ok
    { forward := fun u f => .ok fun i => (t.forward u *ᵥ f) i + b.centralMoment u (polys i)
      backward := fun u k => .ok (t.backward u *ᵥ fun i => k i - b.centralMoment u (polys i)) }

end CentralTransforms
end Lbm
