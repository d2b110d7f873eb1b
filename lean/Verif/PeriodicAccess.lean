/-
Model of `PeriodicTwoFieldsAccessor` (`fieldaccess.py:89-133`): periodicity built into the loads of the kernel.
-/
import Verif.Sweep

set_option linter.unusedSectionVars false

namespace Lbm

variable {D : ℕ} {V : Type}

/-- The offset of one load in one coordinate (`fieldaccess.py:110-127`): `L` is the array length, `g` the number of
ghost layers, `x` the loop counter, `e` the component of the pull direction. `none` is the `NotImplementedError`.
The `sp.Piecewise` conditions are evaluated with the loop counter. -/
def periodicOffset (per : Bool) (L g x e : ℤ) : Option ℤ :=
  if per = false then some e
  else
    let lower := g
    let upper := L - 1 - g
    let diff := upper - lower
    if e = 0 then some 0
    else if e = 1 then some (if x < upper then e else -diff)
    else if e = -1 then some (if lower < x then e else diff)
    else none

/-- The cell from which cell `x` loads direction `d` (`fieldaccess.py:105-129`). -/
def periodicSource (per : Fin D → Bool) (L : Fin D → ℤ) (g : ℤ) (d x : Vec D) : Option (Vec D) := do
  let o ← collect fun k => periodicOffset (per k) (L k) g (x k) (-(d k))
  some fun k => x k + o k

/-- One step with this accessor: a sweep over `cells` reading from `src` and writing direction `i` of cell `x` to slot
`(x, i)` of `dst` (`fieldaccess.py:131-133`), then the array swap. -/
def periodicStep (per : Fin D → Bool) (L : Fin D → ℤ) (g : ℤ) (S : Stencil D)
    (C : Vec D → (Fin S.Q → V) → Fin S.Q → V) :
    List (Vec D) → (Vec D × Fin S.Q → V) → (Vec D × Fin S.Q → V) → Option (Vec D × Fin S.Q → V)
  | [], _, dst => some dst
  | x :: cells, src, dst => do
    let ys ← collect fun i => periodicSource per L g (S.c i) x
    periodicStep per L g S C cells src
      fun s => if s.1 = x then C x (fun j => src (ys j, j)) s.2 else dst s

/-- `n` steps with array swap after each. -/
def periodicRun (per : Fin D → Bool) (L : Fin D → ℤ) (g : ℤ) (S : Stencil D)
    (C : ℕ → Vec D → (Fin S.Q → V) → Fin S.Q → V) (cells : List (Vec D)) :
    ℕ → (Vec D × Fin S.Q → V) × (Vec D × Fin S.Q → V) → Option ((Vec D × Fin S.Q → V) × (Vec D × Fin S.Q → V))
  | 0, s => some s
  | n + 1, s => do
    let s ← periodicRun per L g S C cells n s
    let f ← periodicStep per L g S (C n) cells s.1 s.2
    some (f, s.1)

end Lbm
