import Verif.StencilCtor
import Verif.Parameters
import Mathlib.Analysis.Calculus.Deriv.Basic
import Mathlib.Data.Real.Basic

/-!
# Equations of state

Model of `/repo/src/lbmpy/phasefield/eos.py`.  Densities and parameters are real numbers; a division by zero, which
sympy turns into `zoo`, is left to the theorems to exclude.
-/

namespace Lbm
namespace Eos

/-- `carnahan_starling_eos`; eos.py:8-16. -/
noncomputable def carnahanStarling (gas temperature a b density : ℝ) : ℝ :=
  let e := b * density / 4
  let fraction := (1 + e + e ^ 2 - e ^ 3) / (1 - e) ^ 3
  density * gas * temperature * fraction - a * density ^ 2

/-- `carnahan_starling_critical_temperature`; the constant as the decimal number; eos.py:19-20. -/
noncomputable def carnahanStarlingCriticalTemperature (a b gas : ℝ) : ℝ := 3773 / 10000 * a / b / gas

/-- `van_der_walls_eos`: the solution for the pressure of `(P + a ρ²) (1/ρ - b) = R T`; eos.py:23-26. -/
noncomputable def vanDerWaals (gas temperature a b density : ℝ) : ℝ :=
  gas * temperature / (1 / density - b) - a * density ^ 2

/-- `van_der_walls_critical_temperature`; eos.py:29-30. -/
noncomputable def vanDerWaalsCriticalTemperature (a b gas : ℝ) : ℝ := 8 * a / 27 / b / gas

/-- `eos_from_free_energy`; eos.py:36-39. -/
noncomputable def eosFromFreeEnergy (freeEnergy : ℝ → ℝ) (density : ℝ) : ℝ :=
  density * deriv freeEnergy density - freeEnergy density

/-- `free_energy_from_eos`; `integral` is the antiderivative of `eos / density²` found by sympy; eos.py:42-49. -/
def freeEnergyFromEos (integral : ℝ → ℝ) (const density : ℝ) : ℝ := (integral density + const) * density

/-! ## Maxwell construction

The equation of state is a function of the specific volume.  `zeros c` is the sorted list of the volumes at which the
pressure is `-c`, and `deviation lower upper c` is the integral of `eos + c` between two volumes; both come out of
sympy. -/

/-- `(zeros[-3], zeros[-1])`; eos.py:96. -/
noncomputable def integralBounds (zeros : List ℝ) : Except PyErr (ℝ × ℝ) :=
  match zeros.reverse with
  | upper :: _ :: lower :: _ => .ok (lower, upper)
  | _ => .error .indexError

/-- The state of the bisection: the interval of the shifts, the shift to try; eos.py:88-89. -/
structure Bisection where
  shiftMin : ℝ
  shiftMax : ℝ
  c : ℝ

/-- The new state after a pass with the given deviation; eos.py:98-102. -/
noncomputable def bisectionStep (s : Bisection) (dev : ℝ) : Bisection :=
  let smax := if dev > 0 then s.c else s.shiftMax
  let smin := if dev > 0 then s.shiftMin else s.c
  ⟨smin, smax, (smax + smin) / 2⟩

/-- The loop, for at most `fuel` passes; `bounds` and `dev` are those of the pass before; eos.py:92-104.
`none`: still running.  If no pass is made the bounds are not defined, and a `NameError` is raised. -/
noncomputable def bisectionLoop (zeros : ℝ → List ℝ) (deviation : ℝ → ℝ → ℝ → ℝ) (tolerance : ℝ) :
    ℕ → Bisection → Option (ℝ × ℝ) → ℝ → Option (Except PyErr (ℝ × ℝ))
  | 0, _, _, _ => none
  | fuel + 1, s, bounds, dev =>
    if |dev| > tolerance then
      match integralBounds (zeros s.c) with
      | .error e => some (.error e)
      | .ok bd =>
        bisectionLoop zeros deviation tolerance fuel (bisectionStep s (deviation bd.1 bd.2 s.c)) (some bd)
          (deviation bd.1 bd.2 s.c)
    else match bounds with
      | none => some (.error .exception)
      | some bd => some (.ok (1 / bd.2, 1 / bd.1))

/-- The search of `maxwell_construction`, from the pressure at the local maximum; eos.py:88-104. -/
noncomputable def maxwell (zeros : ℝ → List ℝ) (deviation : ℝ → ℝ → ℝ → ℝ) (pMax tolerance : ℝ) (fuel : ℕ) :
    Option (Except PyErr (ℝ × ℝ)) :=
  bisectionLoop zeros deviation tolerance fuel ⟨-pMax, 0, (0 + -pMax) / 2⟩ none (tolerance * 2)

end Eos
end Lbm
