/-
Model of the shift matrix (`moments.py:443-466`), of the matrix transform to central moments
(`moment_transforms/centralmomenttransforms.py:58-160`) and of the collision operator of
`methods/momentbased/centralmomentbasedmethod.py`.

The entries of the matrices are expressions in the velocity symbols; they are modelled as functions of the velocity. Assertions
about expressions are statements about all velocities.
-/
import Verif.Collision

set_option linter.unusedSectionVars false

namespace Lbm
namespace CentralMoments

open Matrix

variable {K P : Type} [Field K] {D Q : ℕ}

/-- `moment_matrix(moments, stencil, shift_velocity)` (`moments.py:417-440`); `ev p v` is the value of a moment polynomial -/
def momentMatrix (ev : P → (Fin D → K) → K) (moments : Fin Q → P) (c : Fin Q → Fin D → K) (u : Fin D → K) :
    Matrix (Fin Q) (Fin Q) K := fun i q => ev (moments i) fun a => c q a - u a

/-- `N` of `set_up_shift_matrix` (`moments.py:457-460`) -/
noncomputable def shiftMatrix (ev : P → (Fin D → K) → K) (moments : Fin Q → P) (c : Fin Q → Fin D → K) (u : Fin D → K) :
    Matrix (Fin Q) (Fin Q) K := momentMatrix ev moments c u * (momentMatrix ev moments c 0)⁻¹

/-- `N.is_lower` -/
def IsLower (N : (Fin D → K) → Matrix (Fin Q) (Fin Q) K) : Prop := ∀ u i j, i < j → N u i j = 0

open Classical in
/-- `set_up_shift_matrix` (`moments.py:443-466`) -/
noncomputable def setUpShiftMatrix (ev : P → (Fin D → K) → K) (moments : Fin Q → P) (c : Fin Q → Fin D → K) :
    Except PyErr ((Fin D → K) → Matrix (Fin Q) (Fin Q) K) :=
  if (momentMatrix ev moments c 0).det = 0 then .error .valueError
  else if ¬ IsLower (shiftMatrix ev moments c) then .error .assertion
  else if ¬ ∀ u, ∑ i, shiftMatrix ev moments c u i i = (Q : K) then .error .assertion
  else .ok (shiftMatrix ev moments c)

/-- matrices of `PdfsToCentralMomentsByMatrix` -/
structure Transform (K : Type) (D Q : ℕ) where
  forward : (Fin D → K) → Matrix (Fin Q) (Fin Q) K
  backward : (Fin D → K) → Matrix (Fin Q) (Fin Q) K

/-- the constructor of `PdfsToCentralMomentsByMatrix` (`centralmomenttransforms.py:61-74`). `shift_matrix.inv()` is the inverse of a
matrix of expressions; it exists, as the shift matrix for velocity 0 is the unit matrix, and gives the inverse for every velocity where
the denominators do not vanish. -/
noncomputable def matrixTransform (ev : P → (Fin D → K) → K) (moments : Fin Q → P) (c : Fin Q → Fin D → K) :
    Except PyErr (Transform K D Q) :=
  match setUpShiftMatrix ev moments c with
  | .error e => .error e
  | .ok N => .ok { forward := fun u => N u * momentMatrix ev moments c 0
                   backward := fun u => (momentMatrix ev moments c 0)⁻¹ * (N u)⁻¹ }

/-- `P_reduced` of `central_moment_reduced_monomial_to_polynomial_matrix` (`moments.py:613-623`), for the matrix of the reduced
polynomials in the reduced monomials -/
noncomputable def reducedMatrix {P' : Type} (evMono : P' → (Fin D → K) → K) (monos : Fin Q → P') (ev : P → (Fin D → K) → K)
    (polys : Fin Q → P) (c : Fin Q → Fin D → K) (PMono : Matrix (Fin Q) (Fin Q) K) :
    Except PyErr ((Fin D → K) → Matrix (Fin Q) (Fin Q) K) :=
  match setUpShiftMatrix evMono monos c with
  | .error e => .error e
  | .ok N =>
    match setUpShiftMatrix ev polys c with
    | .error e => .error e
    | .ok NP => .ok fun u => NP u * PMono * (N u)⁻¹

/-- `CentralMomentBasedLbMethod` (`centralmomentbasedmethod.py:31-98`) with the matrix transform -/
structure Method (K P : Type) (D Q : ℕ) where
  c : Fin Q → Fin D → K
  moments : Fin Q → P
  ev : P → (Fin D → K) → K
  /-- values of `first_order_equilibrium_moment_symbols`, computed from the populations by the conserved quantity equations -/
  vel : (Fin Q → K) → Fin D → K
  /-- `moment_equilibrium_values` (`centralmomentbasedmethod.py:104-107`): central moments of the equilibrium about `vel` -/
  keq : (Fin Q → K) → Fin Q → K
  zeroCentered : Bool
  deviationOnly : Bool
  /-- central moments of `_equilibrium.background_distribution` about a velocity -/
  background : Option ((Fin D → K) → Fin Q → K)
  /-- `_force_model(self)` and `central_moment_space_forcing(self)`, if the model has it -/
  force : Option (ForceTerms K Q)

namespace Method

/-- the background shift (`centralmomentbasedmethod.py:337-342`, `centralmomenttransforms.py:50-55`) -/
def shift (m : Method K P D Q) : Except PyErr ((Fin D → K) → Fin Q → K) :=
  if m.zeroCentered && !m.deviationOnly then
    match m.background with
    | some b => .ok b
    | none => .error .assertion
  else .ok fun _ _ => 0

/-- `relax_central_moments` (`centralmomentbasedmethod.py:16-25`) -/
def relaxCentralMoments (k keq d F : Fin Q → K) : Fin Q → K := k + (diagonal d) *ᵥ (keq - k) + F

/-- force terms in central moment space (`centralmomentbasedmethod.py:327-334`, `358-361`) -/
def centralForcing (m : Method K P D Q) (includeForce : Bool) : Option ((Fin Q → K) → Fin Q → K) :=
  if includeForce then m.force.bind fun t => t.momentSpace else none

/-- force terms in population space (`centralmomentbasedmethod.py:386-394`) -/
def popForcing (m : Method K P D Q) (includeForce : Bool) : Option ((Fin Q → K) → Fin Q → K) :=
  if includeForce && (m.centralForcing includeForce).isNone then m.force.map fun t => t.pop else none

/-- `_central_moment_collision_rule` (`centralmomentbasedmethod.py:298-396`) with rates `d` -/
noncomputable def collisionRule (m : Method K P D Q) (d : Fin Q → K) (includeForce : Bool) :
    Except PyErr ((Fin Q → K) → Fin Q → K) :=
  match m.shift with
  | .error e => .error e
  | .ok s =>
    match matrixTransform m.ev m.moments m.c with
    | .error e => .error e
    | .ok t =>
      .ok fun f =>
        let u := m.vel f
        -- `forward_transform` (`centralmomenttransforms.py:76-113`)
        let k := t.forward u *ᵥ f + s u
        let F : Fin Q → K := match m.centralForcing includeForce with | some F => F f | none => 0
        let post := relaxCentralMoments k (m.keq f) d F
        -- `backward_transform` (`centralmomenttransforms.py:115-160`)
        let f' := t.backward u *ᵥ (post - s u)
        match m.popForcing includeForce with | some F => f' + F f | none => f'

/-- `get_equilibrium` (`centralmomentbasedmethod.py:234-272`): all rates 1 -/
noncomputable def getEquilibrium (m : Method K P D Q) (includeForce : Bool := false) :
    Except PyErr ((Fin Q → K) → Fin Q → K) := m.collisionRule (fun _ => 1) includeForce

end Method

/-- a moment polynomial in up to three variables as a function of the velocity -/
def pev (p : PExpr) (v : Fin D → K) : K := p.eval fun i : Fin 3 => if h : i.val < D then v ⟨i, h⟩ else 0

end CentralMoments
end Lbm
