/-
Specification of population streaming, independent of the accessor model: the textbook two-phase scheme
"every cell collides, then every population moves one lattice link".
-/
import Mathlib.Algebra.Group.Hom.Defs
import Mathlib.Algebra.Group.Pi.Basic
import Mathlib.Data.Fintype.Defs

namespace Lbm.Spec

/-- Populations of all cells: `f x i` is the number of particles in cell `x` moving along direction `i`. -/
abbrev Pops (G : Type) (Q : ℕ) (V : Type) := G → Fin Q → V

/-- The textbook scheme. `shift i` is the displacement of direction `i` on the lattice, `C t x` the collision
operator of time step `t` in cell `x`. The population in cell `x`, direction `i` after step `t+1` is the one
cell `x - shift i` sent away after colliding in step `t`. -/
def textbook {G V : Type} [AddCommGroup G] {Q : ℕ} (shift : Fin Q → G)
    (C : ℕ → G → (Fin Q → V) → Fin Q → V) : ℕ → Pops G Q V → Pops G Q V
  | 0, f => f
  | t + 1, f => fun x i => C t (x - shift i) (textbook shift C t f (x - shift i)) i

end Lbm.Spec
