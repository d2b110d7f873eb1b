/-
Model of the initial phases in `liquid_lens_setup` and `create_two_drops_between_phases` (`phasefield/experiments2D.py:41-97`).

Fractions in slices become cells as in pystencils (`int(fraction * size)`), with exact fractions instead of floats. The translation of the
concentrations into order parameters (`Concentrations.lean`) and the constructors of the models are left out.
-/
import Mathlib.Data.Fin.VecNotation
import Mathlib.Data.Int.Notation

namespace Lbm
namespace DropSetup

/-- a slice with start and stop in tenths of the domain; `None` is the begin and the end -/
abbrev Slice := Option ℕ × Option ℕ

/-- the cells of the slice in a domain of `n` cells -/
def inSlice (n : ℕ) (s : Slice) (x : ℕ) : Bool :=
  decide ((s.1.map (· * n / 10)).getD 0 ≤ x) && decide (x < (s.2.map (· * n / 10)).getD n)

/-- one call of `set_concentration` for a rectangle -/
structure Fill (m : ℕ) where
  sx : Slice
  sy : Slice
  concentration : Fin m → ℤ

/-- the calls one after the other, at the cell `(x, y)`; `init` is the value before -/
def run {m : ℕ} (nx ny : ℕ) (fills : List (Fill m)) (init : Fin m → ℤ) (x y : ℕ) : Fin m → ℤ :=
  fills.foldl (fun c f => if inSlice nx f.sx x && inSlice ny f.sy y then f.concentration else c) init

/-- `liquid_lens_setup` (`experiments2D.py:53-55`) -/
def lens : List (Fill 3) :=
  [⟨(none, none), (some 5, none), ![1, 0, 0]⟩,
   ⟨(none, none), (none, some 5), ![0, 1, 0]⟩,
   ⟨(some 3, some 7), (some 3, some 7), ![0, 0, 1]⟩]

/-- `create_two_drops_between_phases` (`experiments2D.py:92-95`) -/
def twoDrops : List (Fill 4) :=
  [⟨(none, none), (some 5, none), ![1, 0, 0, 0]⟩,
   ⟨(none, none), (none, some 5), ![0, 1, 0, 0]⟩,
   ⟨(some 2, some 4), (some 3, some 7), ![0, 0, 1, 0]⟩,
   ⟨(some 7, some 8), (some 3, some 7), ![0, 0, 0, 1]⟩]

end DropSetup
end Lbm
