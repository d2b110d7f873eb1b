import Verif.PhaseFieldRun
import Verif.CahnHilliardLb
import Verif.SimplexProjection

/-!
# The multi-phase model with penalty and simplex projection

Model of `create_model` (`/repo/src/lbmpy/phasefield/nphase_nestler.py:46-236`): the order of kernels is `nestlerStep` of `Verif.GhostLayers`, this
file has the kernels (lines 97-188) and the projection at the end of a step (lines 232-233).

From pystencils, which is not part of the repository, is taken: `discretize_spatial` with `stencil='isotropic'` replaces the sum of second
derivatives by a weighted sum over the cell and its neighbours, and `FiniteDifferenceStencilDerivation` gives weights for up to two cells in each
direction.  The weights are parameters.  The code has two dimensions and nine directions; the model leaves both open.  A single
phase, whose fields have no index, is not considered.
-/

namespace Lbm
namespace Nestler

open GhostLayers

variable {K : Type} [Field K] {D Q n : ℕ}

/-- Arguments of `create_model` (`nphase_nestler.py:46-47`); the coefficients are dictionaries with pairs of phases as keys. -/
structure Args (K : Type) where
  coeffA : List ((ℕ × ℕ) × K)
  coeffEpsilon : List ((ℕ × ℕ) × K)
  gabd : K
  alpha : K
  penaltyFactor : K

/-- Entry of a dictionary that is known to be there -/
def entry (d : List ((ℕ × ℕ) × K)) (i j : ℕ) : K := (d.lookup (i, j)).getD 0

/-- All pairs, the larger index first, are keys. -/
def complete (n : ℕ) (d : List ((ℕ × ℕ) × K)) : Bool :=
  (List.range n).all fun i => (List.range i).all fun j => (d.lookup (i, j)).isSome

/-- `interfacial_chemical_potential` (`nphase_nestler.py:51-62`) for any Laplacian -/
def interfacial {X : Type} (P : Args K) (lapl : (X → K) → X → K) (c : Fin n → X → K) (i : Fin n) (x : X) : K :=
  -∑ k, if i = k then 0 else
    let eps := if i < k then entry P.coeffEpsilon k i else entry P.coeffEpsilon i k
    P.alpha ^ 2 * eps ^ 2 * (c k x * lapl (c i) x - c i x * lapl (c k) x)

open MvPolynomial in
/-- `bulk` (`nphase_nestler.py:64-73`) -/
noncomputable def bulk (P : Args K) (n : ℕ) : MvPolynomial (Fin n) K :=
  (∑ i : Fin n, ∑ j : Fin n, if j < i then C (4 * entry P.coeffA i j)⁻¹ * (X i ^ 2 * X j ^ 2) else 0) +
  ∑ i : Fin n, ∑ j : Fin n, if j < i then ∑ k : Fin n, if k < j then C P.gabd * X i * X j * X k else 0 else 0

open MvPolynomial in
/-- `f_bulk` with `f_penalty` (`nphase_nestler.py:99-100`) -/
noncomputable def energy (P : Args K) (n : ℕ) : MvPolynomial (Fin n) K := bulk P n + C P.penaltyFactor * (1 - ∑ i, X i) ^ 2

/-- `mu_eq` (`nphase_nestler.py:102-103`) for any Laplacian -/
noncomputable def potential {X : Type} (P : Args K) (lapl : (X → K) → X → K) (c : Fin n → X → K) (i : Fin n) (x : X) : K :=
  MvPolynomial.eval (fun j => c j x) (MvPolynomial.pderiv i (energy P n)) + interfacial P lapl c i x

/-- A sum over the cells around one cell -/
def weighted (r : ℕ) (w : Vec D → K) (f : Vec D → K) : K := ((box D r).map fun o => w o * f o).sum

/-- What the kernels are made of: weights of the finite differences; `collide`, the collision of the flow for a force (`nphase_nestler.py:164-168`);
the outputs of the streaming kernel, whose method is the default one (lines 170-175); and `chCollide`, the collision of an order parameter
for its value, chemical potential and velocity (lines 117-130). -/
structure Model (K : Type) [Field K] (D Q : ℕ) where
  args : Args K
  laplacian : Vec D → K
  gradient : Fin D → Vec D → K
  directions : Fin Q → Vec D
  collide : (Fin D → K) → (Fin Q → K) → Fin Q → K
  streamDensity : (Fin Q → K) → K
  streamVelocity : (Fin Q → K) → Fin D → K
  chCollide : K → K → (Fin D → K) → (Fin Q → K) → Fin Q → K

namespace Model

variable (M : Model K D Q)

/-- The Laplacian of a field around a cell; only the value in the cell itself is used. -/
def lapl (f : Vec D → K) (_ : Vec D) : K := weighted 1 M.laplacian f

open PhaseFieldRun (Values)
open PhaseFieldRun.Model (toValues)

/-- The values that arrive in a cell (`updatekernels.py:113-116`) -/
def streamed (w : Arr → Vec D → Values K) (a : Arr) (q : Fin Q) : K := w a (-M.directions q) q

/-- The density by `output_equations_from_pdfs` of the method of the order parameters (`cahn_hilliard_lbm.py:31-33`), which is also used for the
flow (`nphase_nestler.py:184-188`, where `cqc` is still that of the last order parameter, line 158) -/
def density (f : Fin Q → K) : K := ∑ q, f q

/-- The velocity by the same equations: there is no force in this method. -/
def velocity (f : Fin Q → K) (a : Fin D) : K := (∑ q, f q * (M.directions q a : K)) / ∑ q, f q

/-- The kernels -/
noncomputable def fns (n : ℕ) : Krn → (Arr → Vec D → Values K) → Arr → Values K
  | .mu, w, .mu i => fun _ => if h : i < n then potential M.args M.lapl (fun j : Fin n => fun o => w (.phi j) o 0) ⟨i, h⟩ 0 else 0
  | .force, w, .force => toValues fun b => ∑ i : Fin n, -w (.phi i) 0 0 * weighted 2 (M.gradient b) fun o => w (.mu i) o 0
  | .collide, w, .hydro => toValues (M.collide (fun a => w .force 0 a) fun q => w .hydro 0 q)
  | .stream, w, .hydroTmp => toValues (M.streamed w .hydro)
  | .stream, w, .density => fun _ => M.streamDensity (M.streamed w .hydro)
  | .stream, w, .velocity => toValues (M.streamVelocity (M.streamed w .hydro))
  | .getter, w, .density => fun _ => density fun q : Fin Q => w .hydro 0 q
  | .getter, w, .velocity => toValues (M.velocity fun q => w .hydro 0 q)
  | .chCollide i, w, .ch _ => toValues (M.chCollide (w (.phi i) 0 0) (w (.mu i) 0 0) (fun a => w .velocity 0 a) fun q => w (.ch i) 0 q)
  | .chStream i, w, .chTmp _ => toValues (M.streamed w (.ch i))
  | .chGetter i, w, .phi _ => fun _ => density fun q : Fin Q => w (.ch i) 0 q
  | _, _, _ => 0

/-- The loop body of `run` without the projection (`nphase_nestler.py:212-231`), if `create_model` does not raise: a pair without coefficient is
a `KeyError` (lines 59, 68); without phases there is an error of some kind, at the latest since the name `cqc` is unknown (line 184). -/
noncomputable def program (n : ℕ) : Except PyErr (List (Op Arr (Values K) D)) :=
  if ¬ complete n M.args.coeffA ∨ ¬ complete n M.args.coeffEpsilon then .error .keyError
  else if n = 0 then .error .exception
  else .ok (nestlerStep (M.fns n) n false)

end Model

/-! ## The projection -/

/-- `simplex_projection_2d(dh.cpu_arrays[c.name])` (`nphase_nestler.py:232-233`): all cells of the array, ghost layers included, one after the other;
`none` stands for a division by zero. -/
def project [LinearOrder K] (th : K) (n : ℕ) (cells : List (Vec D)) (st : Arrays Arr (PhaseFieldRun.Values K) D) :
    Option (Arrays Arr (PhaseFieldRun.Values K) D) :=
  (Simplex.simplexProjection th (cells.map fun y => fun i : Fin n => st (.phi i) y 0)).map fun out a y k =>
    match a with
    | .phi i => match (cells.zip out).lookup y with
      | some c => if h : i < n ∧ k = 0 then c ⟨i, h.1⟩ else st a y k
      | none => st a y k
    | _ => st a y k

/-- `run` with the projection (`nphase_nestler.py:210-233`) -/
noncomputable def runProjected [LinearOrder K] (size : Fin D → ℕ) (g : ℕ) (order : Schedule D) (cells : List (Vec D)) (th : K) (n : ℕ)
    (l : List (Op Arr (PhaseFieldRun.Values K) D)) :
    ℕ → ℕ → Arrays Arr (PhaseFieldRun.Values K) D → Option (Arrays Arr (PhaseFieldRun.Values K) D)
  | _, 0, st => some st
  | t, s + 1, st => (runOps size g order t l st).bind fun st' => (project th n cells st').bind fun st'' =>
      runProjected size g order cells th n l (t + l.length) s st''

/-! ## The collision of an order parameter -/

open CahnHilliardLb in
/-- `create_lb_update_rule` for `cahn_hilliard_lb_method(..., relaxation_rate=1.0, gamma=1.0)` with `density_input` and `velocity_input`
(`nphase_nestler.py:118-126`): the density of the equilibrium is not the sum of the populations but is read from the field
(`creationfunctions.py:664-679`). -/
def chMethod (st : List (List ℤ)) (relax : List (PExpr × K)) (mu c : K) (v : Fin (st.headD []).length → K) :
    MomentMethod K PExpr st.length where
  relax := relax
  ev := fun p q => ((p.at' (st.get q) : ℤ) : K)
  meq := fun _ p => ∑ q : Fin st.length, ((p.at' (st.get q) : ℤ) : K) *
    (match equilibriumTerms st mu 1 c v with | .ok l => l.getD q 0 | .error _ => 0)
  zeroCentered := false
  deviationOnly := false
  background := none
  momentSpace := false
  force := none

open CahnHilliardLb in
/-- The rule of this method (`methods/momentbased/momentbasedmethod.py:176-191`) -/
noncomputable def chRule [DecidableEq K] (st : List (List ℤ)) (c mu : K) (v : Fin (st.headD []).length → K) :
    Except PyErr ((Fin st.length → K) → Fin st.length → K) := do
  let _ ← equilibriumTerms st mu 1 c v
  let relax ← relaxationDict (st.headD []).length st.length (.plain (1 : K))
  (chMethod st relax mu c v).getCollisionRule

end Nestler
end Lbm
