/-
Model of `forcemodels.py`. Force terms are evaluated: symbols are replaced by values in a field `K`, vectors of the
populations by functions on `Fin Q`, vectors in space by functions on `Fin D`.
-/
import Verif.Collision
import Verif.Maxwellian

namespace Lbm

open Matrix

/-- What a force model reads from the method. `u` is the value of the velocity symbols (the equilibrium velocity),
`rates` the diagonal of `symbolic_relaxation_matrix` (its symbols stand for the rates of the method, C34), `eq` the
populations of `get_equilibrium_terms` for given density and velocity. -/
structure ForceInput (K : Type) (Q D : ℕ) where
  c : Fin Q → Fin D → K
  w : Fin Q → K
  M : Matrix (Fin Q) (Fin Q) K
  rates : Fin Q → K
  rho : K
  u : Fin D → K
  compressible : Bool
  eq : K → (Fin D → K) → Fin Q → K
  /-- `He.continuous_force_raw_moments` of the moments of the method -/
  heRaw : Fin Q → K
  F : Fin D → K

namespace ForceInput
variable {K : Type} [Field K] [DecidableEq K] {Q D : ℕ}

/-- `sp.Rational(1, 3)` in all models -/
def csSq : K := 1 / 3

/-- `scalar_product`, `Matrix.dot` -/
def sprod (a b : Fin D → K) : K := ∑ i, a i * b i

/-- `Simple.__call__` (`forcemodels.py:188-196`). -/
def simple (s : ForceInput K Q D) : Fin Q → K := fun q => s.w q / csSq * sprod s.F (s.c q)

/-- `Luo.__call__` (`forcemodels.py:241-256`). -/
def luo (s : ForceInput K Q D) : Fin Q → K := fun q =>
  let dirU := sprod (s.c q) s.u
  s.w q * sprod s.F fun a => (s.c q a - s.u a) / csSq + s.c q a * dirU / csSq ^ 2

/-- `sp.eye(q) - sp.Rational(1, 2) * symbolic_relaxation_matrix` (`forcemodels.py:296`, diagonal) -/
def correction (s : ForceInput K Q D) : Fin Q → K := fun i => 1 - 1 / 2 * s.rates i

/-- `len(set(lb_method.relaxation_rates)) == 1` -/
def isSrt (s : ForceInput K Q D) : Bool := (Finset.univ.image s.rates).card == 1

/-- Common shape of `Guo.__call__` (281-291), `He.__call__` (408-418) and `Buick.__call__` (461-471): with a single
relaxation rate the population terms are scaled by `1 - rr/2`, otherwise the moment-space terms are transformed back. -/
noncomputable def srtOr (s : ForceInput K Q D) (pop momentTerms : Fin Q → K) : Fin Q → K :=
  if s.isSrt then
    -- `symbolic_relaxation_matrix[0]`
    match (List.ofFn s.rates).head? with
    | some rr => fun q => (1 - rr / 2) * pop q
    | none => pop
  else s.M⁻¹ *ᵥ momentTerms

/-- `Guo.moment_space_forcing` (`forcemodels.py:293-298`); `Schiller` is a subclass without changes (441-450). -/
def guoMoments (s : ForceInput K Q D) : Fin Q → K := fun i => s.correction i * (s.M *ᵥ s.luo) i

/-- `Guo.__call__` (`forcemodels.py:281-291`). -/
noncomputable def guo (s : ForceInput K Q D) : Fin Q → K := s.srtOr s.luo s.guoMoments

/-- `He.forcing_terms` (`forcemodels.py:351-368`), for a velocity in the lattice; `eq_terms` is the discrete Maxwellian
of density 1 and second order. -/
def heTerms (s : ForceInput K Q D) (eqTerms : Fin Q → K) : Fin Q → K := fun q =>
  eqTerms q * sprod (fun a => s.c q a - s.u a) s.F / csSq

/-- `He.moment_space_forcing` (`forcemodels.py:420-424`). -/
def heMoments (s : ForceInput K Q D) : Fin Q → K := fun i => s.correction i * s.heRaw i

/-- `He.__call__` (`forcemodels.py:408-418`). -/
noncomputable def he (s : ForceInput K Q D) (eqTerms : Fin Q → K) : Fin Q → K := s.srtOr (s.heTerms eqTerms) s.heMoments

/-- `Buick.moment_space_forcing` (`forcemodels.py:473-478`). -/
def buickMoments (s : ForceInput K Q D) : Fin Q → K := fun i => s.correction i * (s.M *ᵥ s.simple) i

/-- `Buick.__call__` (`forcemodels.py:461-471`). -/
noncomputable def buick (s : ForceInput K Q D) : Fin Q → K := s.srtOr s.simple s.buickMoments

/-- `EDM.__call__` (`forcemodels.py:496-509`). -/
def edm (s : ForceInput K Q D) : Fin Q → K := fun q =>
  let reference := if s.compressible then s.rho else 1
  s.eq s.rho (fun a => s.u a + s.F a / reference) q - s.eq s.rho s.u q

/-- the linear part of `ShanChen.forcing_terms` (`forcemodels.py:528-549`) -/
def shanChenLinear (s : ForceInput K Q D) : Fin Q → K := fun q =>
  let Fq := sprod (s.c q) s.F
  let uq := sprod (s.c q) s.u
  s.w q * (Fq + 3 * uq * Fq - sprod s.u s.F)

/-- the nonlinear part of `ShanChen.forcing_terms` -/
def shanChenNonLinear (s : ForceInput K Q D) : Fin Q → K := fun q =>
  let rho := if s.compressible then s.rho else 1
  let Fq := sprod (s.c q) s.F
  s.w q / (2 * rho) * (3 * Fq ^ 2 - sprod s.F s.F)

/-- `ShanChen.moment_space_forcing` (`forcemodels.py:556-566`). -/
def shanChenMoments (s : ForceInput K Q D) : Fin Q → K := fun i =>
  let corr := 1 / csSq * s.correction i
  corr * (s.M *ᵥ s.shanChenLinear) i + corr ^ 2 * (s.M *ᵥ s.shanChenNonLinear) i

/-- `ShanChen.__call__` (`forcemodels.py:551-554`). -/
noncomputable def shanChen (s : ForceInput K Q D) : Fin Q → K := s.M⁻¹ *ᵥ s.shanChenMoments

end ForceInput

/-- the force models of `forcemodels.py` (`Schiller` is `guo`) -/
inductive ForceKind
  | simple | luo | guo | he | buick | edm | shanChen | centralMoment
  deriving DecidableEq, Repr

variable {K : Type} [Field K] [DecidableEq K] {Q D : ℕ}

/-- `force_model(lb_method)`; `CentralMoment.__call__` raises `ValueError` (`forcemodels.py:219-220`). -/
noncomputable def ForceKind.pop (s : ForceInput K Q D) (heEq : Fin Q → K) : ForceKind → Except PyErr (Fin Q → K)
  | .simple => .ok s.simple
  | .luo => .ok s.luo
  | .guo => .ok s.guo
  | .he => .ok (s.he heEq)
  | .buick => .ok s.buick
  | .edm => .ok s.edm
  | .shanChen => .ok s.shanChen
  | .centralMoment => .error .valueError

/-- `moment_space_forcing`, where a model has it (`forcemodels.py:198,258,293,420,473,511,556`). -/
def ForceKind.moments (s : ForceInput K Q D) : ForceKind → Option (Fin Q → K)
  | .simple => some (s.M *ᵥ s.simple)
  | .luo => some (s.M *ᵥ s.luo)
  | .guo => some s.guoMoments
  | .he => some s.heMoments
  | .buick => some s.buickMoments
  | .edm => some (s.M *ᵥ s.edm)
  | .shanChen => some s.shanChenMoments
  | .centralMoment => none

/-- `default_velocity_shift` (`forcemodels.py:592-593`), the value of `macroscopic_velocity_shift` in every model. -/
def defaultVelocityShift (density : K) (F : Fin D → K) : Fin D → K := fun a => F a / (2 * density)

/-- `default_momentum_density_shift` (`forcemodels.py:596-597`). -/
def defaultMomentumDensityShift (F : Fin D → K) : Fin D → K := fun a => F a / 2

/-- `equilibrium_velocity_shift`: overridden in `CentralMoment`, `Guo`, `He`, `Buick`, `ShanChen`, zero by default
(`forcemodels.py:161-168,231,315,437,489,585`). -/
def ForceKind.equilibriumVelocityShift (density : K) (F : Fin D → K) : ForceKind → Fin D → K
  | .centralMoment | .guo | .he | .buick | .shanChen => defaultVelocityShift density F
  | .simple | .luo | .edm => fun _ => 0

/-! ### Continuous moments used by `He` -/

/-- moments of a one-dimensional Gaussian of mean `u` and variance `v`; the code obtains them from
`get_equilibrium_values_of_maxwell_boltzmann_function`, see `Continuous.lean` -/
def gaussMoment {R : Type} [CommRing R] (u v : R) : ℕ → R
  | 0 => 1
  | 1 => u
  | n + 2 => u * gaussMoment u v (n + 1) + (n + 1 : ℕ) * v * gaussMoment u v n

/-- raw moment of the Maxwell-Boltzmann function for the monomial with exponents `e` -/
def maxwellMoment (rho : K) (u : Fin D → K) (v : K) (e : Fin D → ℕ) : K := rho * ∏ a, gaussMoment (u a) v (e a)

/-- an entry of `monomial_force_moments` in `He.continuous_force_raw_moments` (`forcemodels.py:388-393`) -/
def heMonomial (rho : K) (u F : Fin D → K) (e : Fin D → ℕ) : K :=
  ((1 / 3 : K) * rho)⁻¹ *
    ((∑ a, F a * maxwellMoment rho u (1 / 3) (fun b => e b + if b = a then 1 else 0)) -
      maxwellMoment rho u (1 / 3) e * ∑ a, F a * u a)

/-- `mono_to_poly_matrix * monomial_force_moments` for one polynomial (`forcemodels.py:395-397`): the linear
extension to a polynomial in exponent representation. -/
def hePolynomial (rho : K) (u F : Fin D → K) (p : List (K × (Fin D → ℕ))) : K :=
  (p.map fun t => t.1 * heMonomial rho u F t.2).sum

/-- the force terms of a method whose input values are computed from the populations of the cell; for
`CentralMoment` there are none (`pop` raises) -/
noncomputable def ForceKind.terms (k : ForceKind) (inp : (Fin Q → K) → ForceInput K Q D)
    (heEq : (Fin Q → K) → Fin Q → K) : ForceTerms K Q where
  pop := fun f => match k.pop (inp f) (heEq f) with
    | .ok p => p
    | .error _ => 0
  momentSpace := if k = .centralMoment then none else some fun f => (k.moments (inp f)).getD 0

end Lbm
