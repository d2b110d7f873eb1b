import Verif.Stencil

/-!
# Flow in a domain with periodic sides and walls

The reference for simulations: no arrays, ghost layers, index lists or orders.
-/

namespace Lbm
namespace Spec

variable {D Q : ℕ} {V : Type}

/-- A box of cells, the axes in which it is periodic, and the cells that belong to walls.  Cells next to the box may belong to a
wall, too. -/
structure Domain (D : ℕ) where
  size : Fin D → ℕ
  periodic : Fin D → Bool
  wall : Vec D → Prop

namespace Domain

/-- cells of the box -/
def Inner (d : Domain D) (y : Vec D) : Prop := ∀ k, 0 ≤ y k ∧ y k < d.size k

/-- the cell of the box that a cell outside of a periodic side stands for -/
def image (d : Domain D) (y : Vec D) : Vec D := fun k => if d.periodic k then y k % d.size k else y k

/-- cells of the flow -/
def fluid (d : Domain D) : Set (Vec D) := {x | d.Inner x ∧ ¬ d.wall x}

/-- Seen from the flow, a cell outside of a periodic side is a wall if and only if the cell it stands for is one, and all other
sides are walls. -/
def Closed (d : Domain D) (c : Fin Q → Vec D) : Prop :=
  ∀ x ∈ d.fluid, ∀ i, (d.Inner (d.image (x - c i)) → (d.wall (x - c i) ↔ d.wall (d.image (x - c i)))) ∧
    (¬ d.Inner (d.image (x - c i)) → d.wall (x - c i))

open Classical in
/-- Streaming: population `i` of cell `x` comes from the neighbour in direction `-cᵢ`, or if this is a wall, from what the wall
makes of the populations of the cell. -/
noncomputable def stream (d : Domain D) (c : Fin Q → Vec D) (W : Vec D → Fin Q → (Fin Q → V) → V) (g : Vec D → Fin Q → V) :
    Vec D → Fin Q → V :=
  fun x i => if d.wall (x - c i) then W x i (g x) else g (d.image (x - c i)) i

/-- one step with the populations after the collision as state -/
noncomputable def streamCollide (d : Domain D) (c : Fin Q → Vec D) (W : Vec D → Fin Q → (Fin Q → V) → V)
    (C : Vec D → (Fin Q → V) → Fin Q → V) (g : Vec D → Fin Q → V) : Vec D → Fin Q → V :=
  fun x => C x (d.stream c W g x)

/-- one step with the populations before the collision as state -/
noncomputable def collideStream (d : Domain D) (c : Fin Q → Vec D) (W : Vec D → Fin Q → (Fin Q → V) → V)
    (C : Vec D → (Fin Q → V) → Fin Q → V) (g : Vec D → Fin Q → V) : Vec D → Fin Q → V :=
  d.stream c W fun x => C x (g x)

end Domain
end Spec
end Lbm
