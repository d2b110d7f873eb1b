import Verif.StencilCtor
import Mathlib.Algebra.MvPolynomial.PDeriv
import Mathlib.RingTheory.Derivation.Basic
import Mathlib.Algebra.BigOperators.Fin

/-!
# Chemical potentials, pressure tensor and forces of a free energy

Model of the second half of `/repo/src/lbmpy/phasefield/analytical.py`.

Fields are elements of a commutative ring `R` on which the derivatives `d a` along the axes act; the ring of smooth
functions is one.  A free energy is, as after `expand`, a sum of a polynomial in the order parameters and of products of
a constant with gradients.  Coefficients that depend on the order parameters are not modelled.
-/

namespace Lbm
namespace PhaseField

open scoped BigOperators

/-- A free energy after `expand` and `normalize_product`: its bulk part, and the products that contain gradients with
the symbols inside of the gradients.  `none` is a symbol that is not an order parameter; analytical.py:293-297. -/
structure ExpandedEnergy (K : Type) [Field K] (n : ℕ) where
  bulk : MvPolynomial (Fin n) K
  products : List (K × List (Option (Fin n)))
  /-- The number of summands is at least two: the expression is a sum. -/
  isSum : Bool

section
variable {K : Type} [Field K] {n D : ℕ}

/-- The entry of one product in `extract_gamma`: its sorted indices and the increment; analytical.py:301-307. -/
def gammaEntry (p : K × List (Option (Fin n))) : Except PyErr ((Fin n × Fin n) × K) :=
  match p.2 with
  | [some i, some j] => .ok ((min i j, max i j), if i = j then p.1 * 2 else p.1)
  | _ => .error .valueError

/-- The loop of `extract_gamma`; products without gradients are skipped; analytical.py:295-308. -/
def extractGammaLoop : List (K × List (Option (Fin n))) → (Fin n × Fin n → K) → Except PyErr (Fin n × Fin n → K)
  | [], acc => .ok acc
  | p :: ps, acc =>
    if p.2 = [] then extractGammaLoop ps acc
    else match gammaEntry p with
      | .error e => .error e
      | .ok (ij, v) => extractGammaLoop ps (Function.update acc ij (acc ij + v))

/-- `extract_gamma`; analytical.py:290-309. -/
def extractGamma (F : ExpandedEnergy K n) : Except PyErr (Fin n × Fin n → K) :=
  if F.isSum then extractGammaLoop F.products (fun _ => 0) else .error .assertion

/-- The lookup `gamma[(i, j)] if i < j else gamma[(j, i)]`; analytical.py:333. -/
def gammaAt (gamma : Fin n × Fin n → K) (i j : Fin n) : K := if i < j then gamma (i, j) else gamma (j, i)

variable {R : Type} [CommRing R] [Algebra K R]

/-- The bulk part of a chemical potential; analytical.py:231-240, 314-316. -/
noncomputable def muBulk (F : ExpandedEnergy K n) (c : Fin n → R) (i : Fin n) : R :=
  MvPolynomial.aeval c (MvPolynomial.pderiv i F.bulk)

/-- The sum over the second derivatives; analytical.py:260. -/
def laplacian (d : Fin D → Derivation K R R) (f : R) : R := ∑ a, d a (d a f)

/-- The part of a chemical potential that comes from one product of two gradients, by the functional derivative. -/
def muProduct (d : Fin D → Derivation K R R) (c : Fin n → R) (i : Fin n) (p : K × List (Option (Fin n))) : R :=
  match p.2 with
  | [some j, some k] =>
    -(algebraMap K R p.1) * ((if i = j then laplacian d (c k) else 0) + if i = k then laplacian d (c j) else 0)
  | _ => 0

/-- `chemical_potentials_from_free_energy` with a list of order parameters; analytical.py:231-240. -/
noncomputable def chemicalPotential (d : Fin D → Derivation K R R) (F : ExpandedEnergy K n) (c : Fin n → R)
    (i : Fin n) : R :=
  muBulk F c i + (F.products.map (muProduct d c i)).sum

/-- `force_from_phi_and_mu`; analytical.py:243-248. -/
def forceFromPhiMu (d : Fin D → Derivation K R R) (c mu : Fin n → R) (a : Fin D) : R := ∑ i, -c i * d a (mu i)

/-- `pressure_tensor_bulk_component`; analytical.py:312-319. -/
noncomputable def pressureBulk (F : ExpandedEnergy K n) (c : Fin n → R) (mu : Option (Fin n → R)) : R :=
  ∑ i, c i * (mu.getD (muBulk F c)) i - MvPolynomial.aeval c F.bulk

/-- The term `t` of `pressure_tensor_interface_component`; analytical.py:328-332. -/
def interfaceTerm (d : Fin D → Derivation K R R) (ci cj : R) (a b : Fin D) : R :=
  d a ci * d b cj + d b ci * d a cj
    - if a = b then ∑ g, d g ci * d g cj + ∑ g, ci * d g (d g cj) + ∑ g, cj * d g (d g ci) else 0

/-- `pressure_tensor_interface_component`; analytical.py:322-335. -/
def pressureInterface (d : Fin D → Derivation K R R) (gamma : Fin n × Fin n → K) (c : Fin n → R) (a b : Fin D) : R :=
  ∑ i, ∑ j, interfaceTerm d (c i) (c j) a b * algebraMap K R (gammaAt gamma i j / 2)

/-- The term `t` of `pressure_tensor_interface_component_new`; analytical.py:344-347. -/
def interfaceTermNew (d : Fin D → Derivation K R R) (ci cj : R) (a b : Fin D) : R :=
  2 * d a ci * d b cj - if a = b then ∑ g, d g ci * d g cj + 2 * ∑ g, ci * d g (d g cj) else 0

/-- `pressure_tensor_interface_component_new`; analytical.py:338-350. -/
def pressureInterfaceNew (d : Fin D → Derivation K R R) (gamma : Fin n × Fin n → K) (c : Fin n → R) (a b : Fin D) : R :=
  ∑ i, ∑ j, interfaceTermNew d (c i) (c j) a b * algebraMap K R (gammaAt gamma i j / 2)

/-- `pressure_tensor_from_free_energy`; the coefficients are only extracted if the interface is included;
analytical.py:353-366. -/
noncomputable def pressureTensor (d : Fin D → Derivation K R R) (F : ExpandedEnergy K n) (c : Fin n → R)
    (mu : Option (Fin n → R)) (bulk interface : Bool) : Except PyErr (Fin D → Fin D → R) :=
  match (if interface then (extractGamma F).map some else .ok none : Except PyErr (Option (Fin n × Fin n → K))) with
  | .error e => .error e
  | .ok gamma => .ok fun a b =>
    (match gamma with | some g => pressureInterface d g c a b | none => 0)
      + if bulk then (if a = b then pressureBulk F c mu else 0) else 0

/-- `force_from_pressure_tensor`; analytical.py:369-382. -/
def forceFromPressure (d : Fin D → Derivation K R R) (P : Fin D → Fin D → R) (pbs : Option R) (b : Fin D) : R :=
  -∑ a, d a (P a b) + match pbs with | some s => 2 * d b s * s | none => 0

end

/-! ## Linear index of a symmetric tensor -/

/-- The pairs of `multi_sum(2, dim)` in order; analytical.py:278. -/
def indexPairs (dim : ℕ) : List (ℕ × ℕ) := (List.range dim).flatMap fun i => (List.range dim).map fun j => (i, j)

/-- The loop of `symmetric_tensor_linearization` over the keys in the order of insertion, the value of a key being its
place; analytical.py:278-284. -/
def linearizationLoop : List (ℕ × ℕ) → List ((ℕ × ℕ) × ℕ) → ℕ → List ((ℕ × ℕ) × ℕ)
  | [], acc, _ => acc
  | p :: ps, acc, next =>
    let idx := (min p.1 p.2, max p.1 p.2)
    if idx ∈ acc.map Prod.fst then linearizationLoop ps acc next
    else linearizationLoop ps (acc ++ [(idx, next)]) (next + 1)

/-- `symmetric_tensor_linearization`; analytical.py:275-285. -/
def symmetricLinearization (dim : ℕ) : List ((ℕ × ℕ) × ℕ) := linearizationLoop (indexPairs dim) [] 0

end PhaseField
end Lbm
