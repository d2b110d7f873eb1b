/-
Model of `phasefield/cahn_hilliard_lbm.py`: the lattice Boltzmann method for the Cahn-Hilliard equation.

Symbols are values.  The velocity is an argument, since the steps that use the method pass a velocity field
(`phasefieldstep.py:170-171`, `phasefieldstep_direct.py:94`); the chemical potential is the value of the field in the cell.
-/
import Verif.Collision
import Verif.MomentSets

namespace Lbm
namespace CahnHilliardLb

variable {K : Type} [Field K]

/-- The summand of one direction (`cahn_hilliard_lbm.py:38-43`).  `c_s ** 2` is `1/3` and `c_s ** 4` is `1/9`, `s(1)` and
`s(2)` run over all indices and all ordered pairs of indices, `kd` is the Kronecker delta. -/
def term {D : ℕ} (d : List ℤ) (w : ℚ) (mu gamma rho : K) (v : Fin D → K) : K :=
  (w : K) * (gamma * mu / (1 / 3)
    + rho * (∑ i : Fin D, ((d.getD i 0 : ℤ) : K) * v i) / (1 / 3)
    + rho * (∑ i : Fin D, ∑ j : Fin D,
        v i * v j * (((d.getD i 0 : ℤ) : K) * ((d.getD j 0 : ℤ) : K) - 1 / 3 * (if i = j then 1 else 0))) / (2 * (1 / 9)))

/-- `equilibrium_terms` (`cahn_hilliard_lbm.py:37-45`): the first one is what is missing to `rho`.  Without weights
`get_weights` raises a `KeyError`; without directions the assignment raises an `IndexError`. -/
def equilibriumTerms {D : ℕ} (st : List (List ℤ)) (mu gamma rho : K) (v : Fin D → K) : Except PyErr (List K) :=
  match getWeights st with
  | none => .error .keyError
  | some ws =>
    match (st.zip ws).map fun e => term e.1 e.2 mu gamma rho v with
    | [] => .error .indexError
    | _ :: rest => .ok ((rho - rest.sum) :: rest)

/-- What can be passed as relaxation rate to `create_from_equilibrium` (`methods/creationfunctions.py:192-197`): a symbol,
float or int; another expression; or a dictionary from moments to rates. -/
inductive RateArg (K : Type) where
  | plain (omega : K)
  | expression (omega : K)
  | dict (d : List (PExpr × K))

/-- `mom_to_rr_dict` (`methods/creationfunctions.py:192-197`): only symbols, floats and ints are spread over the default
moments, other expressions cannot be converted to a dictionary. -/
def relaxationDict (D Q : ℕ) : RateArg K → Except PyErr (List (PExpr × K))
  | .plain omega =>
    match defaultMomentSet D Q with
    | none => .error .notImplemented
    | some ps => if ps.length = Q then .ok (ps.map fun p => (p, omega)) else .error .assertion
  | .expression _ => .error .typeError
  | .dict d => if d.length = Q then .ok d else .error .assertion

/-- The method (`cahn_hilliard_lbm.py:46-48`, `methods/creationfunctions.py:202-205`) in a cell with chemical potential
`mu` and velocity `v`: moments of the equilibrium are the moments of its populations
(`generic_discrete_equilibrium.py:92-93`); the density in them is the sum of the populations of the cell. -/
def method {D : ℕ} (st : List (List ℤ)) (relax : List (PExpr × K)) (mu gamma : K) (v : Fin D → K) :
    MomentMethod K PExpr st.length where
  relax := relax
  ev := fun p q => ((p.at' (st.get q) : ℤ) : K)
  meq := fun f p => ∑ q : Fin st.length, ((p.at' (st.get q) : ℤ) : K) *
    (match equilibriumTerms st mu gamma (∑ q, f q) v with | .ok l => l.getD q 0 | .error _ => 0)
  zeroCentered := false
  deviationOnly := false
  background := none
  momentSpace := false
  force := none

/-- `cahn_hilliard_lb_method` (`cahn_hilliard_lbm.py:10-48`) followed by `get_collision_rule`
(`methods/momentbased/momentbasedmethod.py:176-191`).  -/
noncomputable def collisionRule [DecidableEq K] (st : List (List ℤ)) (rate : RateArg K) (mu gamma : K)
    (v : Fin (st.headD []).length → K) : Except PyErr ((Fin st.length → K) → Fin st.length → K) := do
  let _ ← equilibriumTerms st mu gamma 0 v
  let relax ← relaxationDict (st.headD []).length st.length rate
  (method st relax mu gamma v).getCollisionRule

/-- One time step of the populations of all cells: collision in every cell, then every population moves along its
direction. `rule` is the collision rule of a cell. -/
def step {D : ℕ} (st : List (List ℤ)) (rule : (Fin D → ℤ) → (Fin st.length → K) → Fin st.length → K)
    (f : (Fin D → ℤ) → Fin st.length → K) : (Fin D → ℤ) → Fin st.length → K :=
  fun x q => rule (fun a => x a - (st.get q).getD a 0) (f fun a => x a - (st.get q).getD a 0) q

end CahnHilliardLb
end Lbm
