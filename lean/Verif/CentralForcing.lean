/-
Model of the forcing terms of `forcemodels.py` in central moment space: `central_moment_space_forcing`, read by methods with collision in
central moment space (`methods/momentbased/centralmomentbasedmethod.py:358-364`), and `symmetric_central_moment_forcing`, read by
cumulant methods (`methods/cumulantbased/cumulantbasedmethod.py:358-361`). Expressions are evaluated as in `ForceModels`. The force of He
is in `HeCentral`.
-/
import Verif.ForceModels
import Verif.CentralMoments

namespace Lbm
namespace CentralForcing

open Matrix ForceInput

variable {K P : Type} [Field K] [DecidableEq K] {Q D : ℕ}

/-- `central_moment_space_forcing` of `Simple` (`forcemodels.py:201-203`), `Luo` (`261-263`), `Guo` (`300-307`), `Buick` (`480-487`), `EDM`
(`515-518`) and `ShanChen` (`568-583`); `N` is `lb_method.shift_matrix`. `CentralMoment` has no such method. -/
def central (s : ForceInput K Q D) (N : Matrix (Fin Q) (Fin Q) K) : ForceKind → Option (Fin Q → K)
  | .simple => some (N *ᵥ (s.M *ᵥ s.simple))
  | .luo => some (N *ᵥ (s.M *ᵥ s.luo))
  | .guo => some fun i => s.correction i * (N *ᵥ (s.M *ᵥ s.luo)) i
  | .buick => some fun i => s.correction i * (N *ᵥ (s.M *ᵥ s.simple)) i
  | .edm => some (N *ᵥ (s.M *ᵥ s.edm))
  | .shanChen => some fun i =>
      let corr := 1 / csSq * s.correction i
      corr * (N *ᵥ (s.M *ᵥ s.shanChenLinear)) i + corr ^ 2 * (N *ᵥ (s.M *ᵥ s.shanChenNonLinear)) i
  | .he => none
  | .centralMoment => none

/-- `symmetric_central_moment_forcing` of `Simple` (`forcemodels.py:205-210`), `Luo` (`265-270`) and `Guo` (`309-313`): what is added before
and after the collision; `C` is the moment matrix about the fluid velocity. -/
def symmetric (s : ForceInput K Q D) (C : Matrix (Fin Q) (Fin Q) K) : ForceKind → Option ((Fin Q → K) × (Fin Q → K))
  | .simple => some (fun _ => 0, C *ᵥ s.simple)
  | .luo => some (fun _ => 0, C *ᵥ s.luo)
  | .guo => some (fun i => 1 / 2 * (C *ᵥ s.luo) i, fun i => 1 / 2 * (C *ᵥ s.luo) i)
  | _ => none

end CentralForcing
end Lbm
