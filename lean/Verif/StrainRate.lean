/-
Model of `get_field_accesses` and `strain_rate_tensor_getter` (`macroscopic_value_kernels.py:14-26`, `67-85`), of
`second_order_moment_tensor` (`utils.py:4-7`), and of which populations `macroscopic_values_getter` and
`pdf_initialization_assignments` (`macroscopic_value_kernels.py:29-61`) access.

Symbols are replaced by values in a field. The assignments of `strain_rate_tensor_getter` contain the symbols of density and velocity
without defining them; their values are arguments here. The number `1.5` is the rational 3/2.
-/
import Verif.Macroscopic
import Verif.Streaming

namespace Lbm
namespace StrainRate

variable {K : Type} {D Q : ℕ}

/-- `get_field_accesses` (`macroscopic_value_kernels.py:14-26`); `isField` tells whether `pdfs` is a field; if it is a sequence of symbols,
the result `none` stands for these symbols. The errors of the accessor functions are not told apart. -/
def fieldAccesses (S : Stencil D) (isField : Bool) (p : String) (ts : Timestep) (pre : Bool) :
    Except PyErr (Option (Fin S.Q → Access D S.Q)) :=
  if isField then
    match getAccessor D p ts with
    | none => .error .valueError
    | some a => match if pre then a.read S else a.write S with
      | none => .error .exception
      | some acc => .ok (some acc)
  else if p = "pull" ∧ !pre then .ok none
  else .error .valueError

/-- the populations of cell `x` that the accesses name -/
def pops (acc : Fin Q → Access D Q) (arr : Vec D × Fin Q → K) (x : Vec D) (i : Fin Q) : K := arr (loc (.id _) x (acc i))

/-- one cell of a kernel made from `pdf_initialization_assignments` (`macroscopic_value_kernels.py:29-46`): the populations are stored
by the accesses -/
def store (acc : Fin Q → Access D Q) (h : Vec D → Fin Q → K) (cells : List (Vec D)) (arr : Vec D × Fin Q → K) : Vec D × Fin Q → K :=
  sweepTwo (.id _) acc acc (fun x _ => h x) cells arr arr

variable [Field K]

/-- `second_order_moment_tensor` (`utils.py:4-7`) -/
def secondMoments (c : Fin Q → Fin D → K) (f : Fin Q → K) (a b : Fin D) : K := ∑ q, c q a * c q b * f q

/-- right hand side of entry `i * D + j` of the list of assignments of `strain_rate_tensor_getter`
(`macroscopic_value_kernels.py:67-85`): `omega` is the shear relaxation rate, `rho` the density (the background density if incompressible),
`eq` the values of `get_equilibrium_terms` -/
def strainRate (c : Fin Q → Fin D → K) (omega rho : K) (eq f : Fin Q → K) (i j : Fin D) : K :=
  -(3 / 2) * (omega / rho) * secondMoments c (fun q => f q - eq q) i j

/-- the list of assignments in the order of the comprehension (`macroscopic_value_kernels.py:83-84`): index of the component of
`strain_rate_tensor`, and value -/
def assignments (c : Fin Q → Fin D → K) (omega rho : K) (eq f : Fin Q → K) : List (ℕ × K) :=
  (List.finRange D).flatMap fun i => (List.finRange D).map fun j => (i.val * D + j.val, strainRate c omega rho eq f i j)

end StrainRate
end Lbm
