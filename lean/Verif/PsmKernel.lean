import Verif.Psm

/-!
# The update kernel with conditionals for partially saturated cells

`create_psm_update_rule` (`creationfunctions.py`, lines 871-918): one block without particles, and one block per number of overlapping
particles, each guarded by a condition on the fraction fields of the cell.  The blocks are executed one after the other.  The model is one
cell: the populations the kernel reads there, the ones it writes, and the entries of `particle_force_field`.
-/

namespace Lbm
namespace PsmKernel

variable {K : Type} [Field K] [LinearOrder K] {D : ℕ}

/-- What the generated rule needs: the collision for a value of the fraction field (`none`: a configuration without PSM), the equilibrium
for the fluid velocity, the equilibrium for the velocity of each particle, and `SC`. -/
structure Method (S : Stencil D) (K : Type) where
  collide : Option K → (Fin S.Q → K) → Fin S.Q → K
  eqF : (Fin S.Q → K) → Fin S.Q → K
  eqS : (Fin S.Q → K) → ℕ → Fin S.Q → K
  sc : ℤ
  rate0 : K

/-- The cell: source populations, destination populations, forces on the particles -/
structure Cell (S : Stencil D) (K : Type) where
  src : Fin S.Q → K
  dst : Fin S.Q → K
  forces : ℕ → Fin D → K

/-- Two arrays, or an access pattern that writes where it reads -/
inductive Layout where
  | twoArrays
  | inPlace
  deriving DecidableEq

/-- Writing the new populations -/
def store {S : Stencil D} (l : Layout) (c : Cell S K) (post : Fin S.Q → K) : Cell S K :=
  match l with
  | .twoArrays => { c with dst := post }
  | .inPlace => { c with src := post }

/-- The block without particles (lines 875-888) -/
def plainBlock {S : Stencil D} (l : Layout) (m : Method S K) (c : Cell S K) : Cell S K := store l c (m.collide none c.src)

/-- The collision for `n` particles (`create_lb_update_rule` with `MaxParticlesPerCell = n`, through `add_psm_to_collision_rule`) -/
def collideN {S : Stencil D} (m : Method S K) (fraction : K) (indiv : ℕ → K) (n : ℕ) (f : Fin S.Q → K) :
    Except PyErr ((Fin S.Q → K) × List (Fin D → K)) :=
  addPsm S m.sc m.rate0 f (m.eqF f) (m.collide (some fraction) f) ((List.range n).map fun p => (indiv p, m.eqS f p))

/-- The block for `n` particles (lines 892-900 and 904-914), with a force field -/
def particleBlock {S : Stencil D} (l : Layout) (m : Method S K) (fraction : K) (indiv : ℕ → K) (n : ℕ) (c : Cell S K) :
    Except PyErr (Cell S K) := do
  let (post, F) ← collideN m fraction indiv n c.src
  pure { store l c post with forces := fun p => if h : p < F.length then F[p] else c.forces p }

/-- `create_psm_update_rule` (lines 871-918), executed in a cell.  `indiv` is the optional field of individual fractions.  (The code meets
errors of a block when generating it, here they are met when the block is executed.) -/
def psmUpdate {S : Stencil D} (l : Layout) (m : Method S K) (maxParticles : ℕ) (fraction : K) (indiv : Option (ℕ → K)) (c : Cell S K) :
    Except PyErr (Cell S K) :=
  let c1 := if fraction ≤ 0 then plainBlock l m c else c
  match indiv with
  | none =>
    if maxParticles ≠ 1 then .error .assertion
    else if fraction > 0 then particleBlock l m fraction (fun _ => fraction) 1 c1 else .ok c1
  | some e => (List.range maxParticles).foldlM (fun c p => if e p > 0 then particleBlock l m fraction e (p + 1) c else .ok c) c1

/-- A kernel without conditionals: `create_lb_update_rule` for all particles -/
def fullUpdate {S : Stencil D} (l : Layout) (m : Method S K) (maxParticles : ℕ) (fraction : K) (indiv : ℕ → K) (c : Cell S K) :
    Except PyErr (Cell S K) := particleBlock l m fraction indiv maxParticles c

end PsmKernel
end Lbm
