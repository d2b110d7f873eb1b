/-
Certificates for `Props/MomentSets.lean`: for every moment set offered for a stencil (velocities in the ordering
`walberla`) the matrix of the values of the moments, and an integer multiple of its inverse. Computed outside Lean;
nothing about them is trusted, they are checked by the kernel.
-/

namespace Lbm.Certificates

/-- (common denominator `d`, values, `d` times the inverse) -/
abbrev Certificate := Int × List (List Int) × List (List Int)

def default_D2Q9 : Certificate :=
  (4,
   [[1, 1, 1, 1, 1, 1, 1, 1, 1],
    [0, 1, -1, 0, 0, 1, 1, -1, -1],
    [0, 1, 1, 0, 0, 1, 1, 1, 1],
    [0, 0, 0, -1, 1, -1, 1, -1, 1],
    [0, 0, 0, 0, 0, -1, 1, 1, -1],
    [0, 0, 0, 0, 0, -1, 1, -1, 1],
    [0, 0, 0, 1, 1, 1, 1, 1, 1],
    [0, 0, 0, 0, 0, 1, 1, -1, -1],
    [0, 0, 0, 0, 0, 1, 1, 1, 1]],
   [[4, 0, -4, 0, 0, 0, -4, 0, 4],
    [0, 2, 2, 0, 0, 0, 0, -2, -2],
    [0, -2, 2, 0, 0, 0, 0, 2, -2],
    [0, 0, 0, -2, 0, 2, 2, 0, -2],
    [0, 0, 0, 2, 0, -2, 2, 0, -2],
    [0, 0, 0, 0, -1, -1, 0, 1, 1],
    [0, 0, 0, 0, 1, 1, 0, 1, 1],
    [0, 0, 0, 0, 1, -1, 0, -1, 1],
    [0, 0, 0, 0, -1, 1, 0, -1, 1]])

def default_D3Q27 : Certificate :=
  (8,
   [[1, 1, 1, 1, 1, 1, 1, 1, 1, 1, 1, 1, 1, 1, 1, 1, 1, 1, 1, 1, 1, 1, 1, 1, 1, 1, 1],
    [0, 0, 0, 0, 0, 1, -1, 0, 0, 0, 0, 1, 1, 1, 1, -1, -1, -1, -1, 1, 1, 1, 1, -1, -1, -1, -1],
    [0, 0, 0, 0, 0, 1, 1, 0, 0, 0, 0, 1, 1, 1, 1, 1, 1, 1, 1, 1, 1, 1, 1, 1, 1, 1, 1],
    [0, 1, -1, 0, 0, 0, 0, 1, 1, -1, -1, 1, -1, 0, 0, 1, -1, 0, 0, 1, 1, -1, -1, 1, 1, -1, -1],
    [0, 0, 0, 0, 0, 0, 0, 0, 0, 0, 0, 1, -1, 0, 0, -1, 1, 0, 0, 1, 1, -1, -1, -1, -1, 1, 1],
    [0, 0, 0, 0, 0, 0, 0, 0, 0, 0, 0, 1, -1, 0, 0, 1, -1, 0, 0, 1, 1, -1, -1, 1, 1, -1, -1],
    [0, 1, 1, 0, 0, 0, 0, 1, 1, 1, 1, 1, 1, 0, 0, 1, 1, 0, 0, 1, 1, 1, 1, 1, 1, 1, 1],
    [0, 0, 0, 0, 0, 0, 0, 0, 0, 0, 0, 1, 1, 0, 0, -1, -1, 0, 0, 1, 1, 1, 1, -1, -1, -1, -1],
    [0, 0, 0, 0, 0, 0, 0, 0, 0, 0, 0, 1, 1, 0, 0, 1, 1, 0, 0, 1, 1, 1, 1, 1, 1, 1, 1],
    [0, 0, 0, -1, 1, 0, 0, -1, 1, -1, 1, 0, 0, -1, 1, 0, 0, -1, 1, 1, -1, 1, -1, 1, -1, 1, -1],
    [0, 0, 0, 0, 0, 0, 0, 0, 0, 0, 0, 0, 0, -1, 1, 0, 0, 1, -1, 1, -1, 1, -1, -1, 1, -1, 1],
    [0, 0, 0, 0, 0, 0, 0, 0, 0, 0, 0, 0, 0, -1, 1, 0, 0, -1, 1, 1, -1, 1, -1, 1, -1, 1, -1],
    [0, 0, 0, 0, 0, 0, 0, -1, 1, 1, -1, 0, 0, 0, 0, 0, 0, 0, 0, 1, -1, -1, 1, 1, -1, -1, 1],
    [0, 0, 0, 0, 0, 0, 0, 0, 0, 0, 0, 0, 0, 0, 0, 0, 0, 0, 0, 1, -1, -1, 1, -1, 1, 1, -1],
    [0, 0, 0, 0, 0, 0, 0, 0, 0, 0, 0, 0, 0, 0, 0, 0, 0, 0, 0, 1, -1, -1, 1, 1, -1, -1, 1],
    [0, 0, 0, 0, 0, 0, 0, -1, 1, -1, 1, 0, 0, 0, 0, 0, 0, 0, 0, 1, -1, 1, -1, 1, -1, 1, -1],
    [0, 0, 0, 0, 0, 0, 0, 0, 0, 0, 0, 0, 0, 0, 0, 0, 0, 0, 0, 1, -1, 1, -1, -1, 1, -1, 1],
    [0, 0, 0, 0, 0, 0, 0, 0, 0, 0, 0, 0, 0, 0, 0, 0, 0, 0, 0, 1, -1, 1, -1, 1, -1, 1, -1],
    [0, 0, 0, 1, 1, 0, 0, 1, 1, 1, 1, 0, 0, 1, 1, 0, 0, 1, 1, 1, 1, 1, 1, 1, 1, 1, 1],
    [0, 0, 0, 0, 0, 0, 0, 0, 0, 0, 0, 0, 0, 1, 1, 0, 0, -1, -1, 1, 1, 1, 1, -1, -1, -1, -1],
    [0, 0, 0, 0, 0, 0, 0, 0, 0, 0, 0, 0, 0, 1, 1, 0, 0, 1, 1, 1, 1, 1, 1, 1, 1, 1, 1],
    [0, 0, 0, 0, 0, 0, 0, 1, 1, -1, -1, 0, 0, 0, 0, 0, 0, 0, 0, 1, 1, -1, -1, 1, 1, -1, -1],
    [0, 0, 0, 0, 0, 0, 0, 0, 0, 0, 0, 0, 0, 0, 0, 0, 0, 0, 0, 1, 1, -1, -1, -1, -1, 1, 1],
    [0, 0, 0, 0, 0, 0, 0, 0, 0, 0, 0, 0, 0, 0, 0, 0, 0, 0, 0, 1, 1, -1, -1, 1, 1, -1, -1],
    [0, 0, 0, 0, 0, 0, 0, 1, 1, 1, 1, 0, 0, 0, 0, 0, 0, 0, 0, 1, 1, 1, 1, 1, 1, 1, 1],
    [0, 0, 0, 0, 0, 0, 0, 0, 0, 0, 0, 0, 0, 0, 0, 0, 0, 0, 0, 1, 1, 1, 1, -1, -1, -1, -1],
    [0, 0, 0, 0, 0, 0, 0, 0, 0, 0, 0, 0, 0, 0, 0, 0, 0, 0, 0, 1, 1, 1, 1, 1, 1, 1, 1]],
   [[8, 0, -8, 0, 0, 0, -8, 0, 8, 0, 0, 0, 0, 0, 0, 0, 0, 0, -8, 0, 8, 0, 0, 0, 8, 0, -8],
    [0, 0, 0, 4, 0, -4, 4, 0, -4, 0, 0, 0, 0, 0, 0, 0, 0, 0, 0, 0, 0, -4, 0, 4, -4, 0, 4],
    [0, 0, 0, -4, 0, 4, 4, 0, -4, 0, 0, 0, 0, 0, 0, 0, 0, 0, 0, 0, 0, 4, 0, -4, -4, 0, 4],
    [0, 0, 0, 0, 0, 0, 0, 0, 0, -4, 0, 4, 0, 0, 0, 4, 0, -4, 4, 0, -4, 0, 0, 0, -4, 0, 4],
    [0, 0, 0, 0, 0, 0, 0, 0, 0, 4, 0, -4, 0, 0, 0, -4, 0, 4, 4, 0, -4, 0, 0, 0, -4, 0, 4],
    [0, 4, 4, 0, 0, 0, 0, -4, -4, 0, 0, 0, 0, 0, 0, 0, 0, 0, 0, -4, -4, 0, 0, 0, 0, 4, 4],
    [0, -4, 4, 0, 0, 0, 0, 4, -4, 0, 0, 0, 0, 0, 0, 0, 0, 0, 0, 4, -4, 0, 0, 0, 0, -4, 4],
    [0, 0, 0, 0, 0, 0, 0, 0, 0, 0, 0, 0, -2, 0, 2, -2, 0, 2, 0, 0, 0, 2, 0, -2, 2, 0, -2],
    [0, 0, 0, 0, 0, 0, 0, 0, 0, 0, 0, 0, 2, 0, -2, 2, 0, -2, 0, 0, 0, 2, 0, -2, 2, 0, -2],
    [0, 0, 0, 0, 0, 0, 0, 0, 0, 0, 0, 0, 2, 0, -2, -2, 0, 2, 0, 0, 0, -2, 0, 2, 2, 0, -2],
    [0, 0, 0, 0, 0, 0, 0, 0, 0, 0, 0, 0, -2, 0, 2, 2, 0, -2, 0, 0, 0, -2, 0, 2, 2, 0, -2],
    [0, 0, 0, 0, 2, 2, 0, 2, 2, 0, 0, 0, 0, 0, 0, 0, 0, 0, 0, 0, 0, 0, -2, -2, 0, -2, -2],
    [0, 0, 0, 0, -2, -2, 0, 2, 2, 0, 0, 0, 0, 0, 0, 0, 0, 0, 0, 0, 0, 0, 2, 2, 0, -2, -2],
    [0, 0, 0, 0, 0, 0, 0, 0, 0, 0, -2, -2, 0, 0, 0, 0, 2, 2, 0, 2, 2, 0, 0, 0, 0, -2, -2],
    [0, 0, 0, 0, 0, 0, 0, 0, 0, 0, 2, 2, 0, 0, 0, 0, -2, -2, 0, 2, 2, 0, 0, 0, 0, -2, -2],
    [0, 0, 0, 0, -2, 2, 0, -2, 2, 0, 0, 0, 0, 0, 0, 0, 0, 0, 0, 0, 0, 0, 2, -2, 0, 2, -2],
    [0, 0, 0, 0, 2, -2, 0, -2, 2, 0, 0, 0, 0, 0, 0, 0, 0, 0, 0, 0, 0, 0, -2, 2, 0, 2, -2],
    [0, 0, 0, 0, 0, 0, 0, 0, 0, 0, 2, -2, 0, 0, 0, 0, -2, 2, 0, -2, 2, 0, 0, 0, 0, 2, -2],
    [0, 0, 0, 0, 0, 0, 0, 0, 0, 0, -2, 2, 0, 0, 0, 0, 2, -2, 0, -2, 2, 0, 0, 0, 0, 2, -2],
    [0, 0, 0, 0, 0, 0, 0, 0, 0, 0, 0, 0, 0, 1, 1, 0, 1, 1, 0, 0, 0, 0, 1, 1, 0, 1, 1],
    [0, 0, 0, 0, 0, 0, 0, 0, 0, 0, 0, 0, 0, -1, -1, 0, -1, -1, 0, 0, 0, 0, 1, 1, 0, 1, 1],
    [0, 0, 0, 0, 0, 0, 0, 0, 0, 0, 0, 0, 0, -1, -1, 0, 1, 1, 0, 0, 0, 0, -1, -1, 0, 1, 1],
    [0, 0, 0, 0, 0, 0, 0, 0, 0, 0, 0, 0, 0, 1, 1, 0, -1, -1, 0, 0, 0, 0, -1, -1, 0, 1, 1],
    [0, 0, 0, 0, 0, 0, 0, 0, 0, 0, 0, 0, 0, -1, 1, 0, -1, 1, 0, 0, 0, 0, -1, 1, 0, -1, 1],
    [0, 0, 0, 0, 0, 0, 0, 0, 0, 0, 0, 0, 0, 1, -1, 0, 1, -1, 0, 0, 0, 0, -1, 1, 0, -1, 1],
    [0, 0, 0, 0, 0, 0, 0, 0, 0, 0, 0, 0, 0, 1, -1, 0, -1, 1, 0, 0, 0, 0, 1, -1, 0, -1, 1],
    [0, 0, 0, 0, 0, 0, 0, 0, 0, 0, 0, 0, 0, -1, 1, 0, 1, -1, 0, 0, 0, 0, 1, -1, 0, -1, 1]])

def default_D3Q19 : Certificate :=
  (4,
   [[1, 1, 1, 1, 1, 1, 1, 1, 1, 1, 1, 1, 1, 1, 1, 1, 1, 1, 1],
    [0, 0, 0, 0, 0, 1, -1, 0, 0, 0, 0, 1, 1, 1, 1, -1, -1, -1, -1],
    [0, 0, 0, 0, 0, 1, 1, 0, 0, 0, 0, 1, 1, 1, 1, 1, 1, 1, 1],
    [0, 1, -1, 0, 0, 0, 0, 1, 1, -1, -1, 1, -1, 0, 0, 1, -1, 0, 0],
    [0, 0, 0, 0, 0, 0, 0, 0, 0, 0, 0, 1, -1, 0, 0, -1, 1, 0, 0],
    [0, 0, 0, 0, 0, 0, 0, 0, 0, 0, 0, 1, -1, 0, 0, 1, -1, 0, 0],
    [0, 1, 1, 0, 0, 0, 0, 1, 1, 1, 1, 1, 1, 0, 0, 1, 1, 0, 0],
    [0, 0, 0, 0, 0, 0, 0, 0, 0, 0, 0, 1, 1, 0, 0, -1, -1, 0, 0],
    [0, 0, 0, 0, 0, 0, 0, 0, 0, 0, 0, 1, 1, 0, 0, 1, 1, 0, 0],
    [0, 0, 0, -1, 1, 0, 0, -1, 1, -1, 1, 0, 0, -1, 1, 0, 0, -1, 1],
    [0, 0, 0, 0, 0, 0, 0, 0, 0, 0, 0, 0, 0, -1, 1, 0, 0, 1, -1],
    [0, 0, 0, 0, 0, 0, 0, 0, 0, 0, 0, 0, 0, -1, 1, 0, 0, -1, 1],
    [0, 0, 0, 0, 0, 0, 0, -1, 1, 1, -1, 0, 0, 0, 0, 0, 0, 0, 0],
    [0, 0, 0, 0, 0, 0, 0, -1, 1, -1, 1, 0, 0, 0, 0, 0, 0, 0, 0],
    [0, 0, 0, 1, 1, 0, 0, 1, 1, 1, 1, 0, 0, 1, 1, 0, 0, 1, 1],
    [0, 0, 0, 0, 0, 0, 0, 0, 0, 0, 0, 0, 0, 1, 1, 0, 0, -1, -1],
    [0, 0, 0, 0, 0, 0, 0, 0, 0, 0, 0, 0, 0, 1, 1, 0, 0, 1, 1],
    [0, 0, 0, 0, 0, 0, 0, 1, 1, -1, -1, 0, 0, 0, 0, 0, 0, 0, 0],
    [0, 0, 0, 0, 0, 0, 0, 1, 1, 1, 1, 0, 0, 0, 0, 0, 0, 0, 0]],
   [[4, 0, -4, 0, 0, 0, -4, 0, 4, 0, 0, 0, 0, 0, -4, 0, 4, 0, 4],
    [0, 0, 0, 2, 0, -2, 2, 0, -2, 0, 0, 0, 0, 0, 0, 0, 0, -2, -2],
    [0, 0, 0, -2, 0, 2, 2, 0, -2, 0, 0, 0, 0, 0, 0, 0, 0, 2, -2],
    [0, 0, 0, 0, 0, 0, 0, 0, 0, -2, 0, 2, 0, 2, 2, 0, -2, 0, -2],
    [0, 0, 0, 0, 0, 0, 0, 0, 0, 2, 0, -2, 0, -2, 2, 0, -2, 0, -2],
    [0, 2, 2, 0, 0, 0, 0, -2, -2, 0, 0, 0, 0, 0, 0, -2, -2, 0, 0],
    [0, -2, 2, 0, 0, 0, 0, 2, -2, 0, 0, 0, 0, 0, 0, 2, -2, 0, 0],
    [0, 0, 0, 0, 0, 0, 0, 0, 0, 0, 0, 0, -1, -1, 0, 0, 0, 1, 1],
    [0, 0, 0, 0, 0, 0, 0, 0, 0, 0, 0, 0, 1, 1, 0, 0, 0, 1, 1],
    [0, 0, 0, 0, 0, 0, 0, 0, 0, 0, 0, 0, 1, -1, 0, 0, 0, -1, 1],
    [0, 0, 0, 0, 0, 0, 0, 0, 0, 0, 0, 0, -1, 1, 0, 0, 0, -1, 1],
    [0, 0, 0, 0, 1, 1, 0, 1, 1, 0, 0, 0, 0, 0, 0, 0, 0, 0, 0],
    [0, 0, 0, 0, -1, -1, 0, 1, 1, 0, 0, 0, 0, 0, 0, 0, 0, 0, 0],
    [0, 0, 0, 0, 0, 0, 0, 0, 0, 0, -1, -1, 0, 0, 0, 1, 1, 0, 0],
    [0, 0, 0, 0, 0, 0, 0, 0, 0, 0, 1, 1, 0, 0, 0, 1, 1, 0, 0],
    [0, 0, 0, 0, -1, 1, 0, -1, 1, 0, 0, 0, 0, 0, 0, 0, 0, 0, 0],
    [0, 0, 0, 0, 1, -1, 0, -1, 1, 0, 0, 0, 0, 0, 0, 0, 0, 0, 0],
    [0, 0, 0, 0, 0, 0, 0, 0, 0, 0, 1, -1, 0, 0, 0, -1, 1, 0, 0],
    [0, 0, 0, 0, 0, 0, 0, 0, 0, 0, -1, 1, 0, 0, 0, -1, 1, 0, 0]])

def default_D3Q15 : Certificate :=
  (144,
   [[1, 1, 1, 1, 1, 1, 1, 1, 1, 1, 1, 1, 1, 1, 1],
    [0, 0, 0, 0, 0, 1, -1, 1, 1, 1, 1, -1, -1, -1, -1],
    [0, 0, 0, 0, 0, 1, 1, 1, 1, 1, 1, 1, 1, 1, 1],
    [0, 1, -1, 0, 0, 0, 0, 1, 1, -1, -1, 1, 1, -1, -1],
    [0, 0, 0, 0, 0, 0, 0, 1, 1, -1, -1, -1, -1, 1, 1],
    [0, 1, 1, 0, 0, 0, 0, 1, 1, 1, 1, 1, 1, 1, 1],
    [0, 0, 0, -1, 1, 0, 0, 1, -1, 1, -1, 1, -1, 1, -1],
    [0, 0, 0, 0, 0, 0, 0, 1, -1, 1, -1, -1, 1, -1, 1],
    [0, 0, 0, 0, 0, 0, 0, 1, -1, -1, 1, 1, -1, -1, 1],
    [0, 0, 0, 0, 0, 0, 0, 1, -1, -1, 1, -1, 1, 1, -1],
    [0, 0, 0, 1, 1, 0, 0, 1, 1, 1, 1, 1, 1, 1, 1],
    [0, 0, 0, 0, 0, 0, 0, 18, 18, 18, 18, 18, 18, 18, 18],
    [0, 0, 0, 0, 0, 0, 0, 6, -6, 6, -6, 6, -6, 6, -6],
    [0, 0, 0, 0, 0, 0, 0, 6, 6, -6, -6, 6, 6, -6, -6],
    [0, 0, 0, 0, 0, 0, 0, 6, 6, 6, 6, -6, -6, -6, -6]],
   [[144, 0, -144, 0, 0, -144, 0, 0, 0, 0, -144, 16, 0, 0, 0],
    [0, 0, 0, 72, 0, 72, 0, 0, 0, 0, 0, -4, 0, -12, 0],
    [0, 0, 0, -72, 0, 72, 0, 0, 0, 0, 0, -4, 0, 12, 0],
    [0, 0, 0, 0, 0, 0, -72, 0, 0, 0, 72, -4, 12, 0, 0],
    [0, 0, 0, 0, 0, 0, 72, 0, 0, 0, 72, -4, -12, 0, 0],
    [0, 72, 72, 0, 0, 0, 0, 0, 0, 0, 0, -4, 0, 0, -12],
    [0, -72, 72, 0, 0, 0, 0, 0, 0, 0, 0, -4, 0, 0, 12],
    [0, 0, 0, 0, 18, 0, 0, 18, 18, 18, 0, 1, 3, 3, 3],
    [0, 0, 0, 0, 18, 0, 0, -18, -18, -18, 0, 1, -3, 3, 3],
    [0, 0, 0, 0, -18, 0, 0, 18, -18, -18, 0, 1, 3, -3, 3],
    [0, 0, 0, 0, -18, 0, 0, -18, 18, 18, 0, 1, -3, -3, 3],
    [0, 0, 0, 0, -18, 0, 0, -18, 18, -18, 0, 1, 3, 3, -3],
    [0, 0, 0, 0, -18, 0, 0, 18, -18, 18, 0, 1, -3, 3, -3],
    [0, 0, 0, 0, 18, 0, 0, -18, -18, 18, 0, 1, 3, -3, -3],
    [0, 0, 0, 0, 18, 0, 0, 18, 18, -18, 0, 1, -3, -3, -3]])

def default_D3Q7 : Certificate :=
  (6,
   [[1, 1, 1, 1, 1, 1, 1],
    [0, 0, 0, 0, 0, 1, -1],
    [0, 1, -1, 0, 0, 0, 0],
    [0, 0, 0, -1, 1, 0, 0],
    [0, -1, -1, 1, 1, 0, 0],
    [0, 0, 0, 1, 1, -1, -1],
    [0, 1, 1, 1, 1, 1, 1]],
   [[6, 0, 0, 0, 0, 0, -6],
    [0, 0, 3, 0, -2, 1, 1],
    [0, 0, -3, 0, -2, 1, 1],
    [0, 0, 0, -3, 1, 1, 1],
    [0, 0, 0, 3, 1, 1, 1],
    [0, 3, 0, 0, 1, -2, 1],
    [0, -3, 0, 0, 1, -2, 1]])

def cascaded_D2Q9 : Certificate :=
  (4,
   [[1, 1, 1, 1, 1, 1, 1, 1, 1],
    [0, 0, 0, -1, 1, -1, 1, -1, 1],
    [0, 1, -1, 0, 0, 1, 1, -1, -1],
    [0, 0, 0, 0, 0, -1, 1, 1, -1],
    [0, -1, -1, 1, 1, 0, 0, 0, 0],
    [0, 1, 1, 1, 1, 2, 2, 2, 2],
    [0, 0, 0, 0, 0, 1, 1, -1, -1],
    [0, 0, 0, 0, 0, -1, 1, -1, 1],
    [0, 0, 0, 0, 0, 1, 1, 1, 1]],
   [[4, 0, 0, 0, 0, -4, 0, 0, 4],
    [0, 0, 2, 0, -1, 1, -2, 0, -2],
    [0, 0, -2, 0, -1, 1, 2, 0, -2],
    [0, -2, 0, 0, 1, 1, 0, 2, -2],
    [0, 2, 0, 0, 1, 1, 0, -2, -2],
    [0, 0, 0, -1, 0, 0, 1, -1, 1],
    [0, 0, 0, 1, 0, 0, 1, 1, 1],
    [0, 0, 0, 1, 0, 0, -1, -1, 1],
    [0, 0, 0, -1, 0, 0, -1, 1, 1]])

def cascaded_D3Q7 : Certificate :=
  (6,
   [[1, 1, 1, 1, 1, 1, 1],
    [0, 0, 0, -1, 1, 0, 0],
    [0, 1, -1, 0, 0, 0, 0],
    [0, 0, 0, 0, 0, 1, -1],
    [0, -1, -1, 1, 1, 0, 0],
    [0, 0, 0, 1, 1, -1, -1],
    [0, 1, 1, 1, 1, 1, 1]],
   [[6, 0, 0, 0, 0, 0, -6],
    [0, 0, 3, 0, -2, 1, 1],
    [0, 0, -3, 0, -2, 1, 1],
    [0, -3, 0, 0, 1, 1, 1],
    [0, 3, 0, 0, 1, 1, 1],
    [0, 0, 0, 3, 1, -2, 1],
    [0, 0, 0, -3, 1, -2, 1]])

def cascaded_D3Q15 : Certificate :=
  (48,
   [[1, 1, 1, 1, 1, 1, 1, 1, 1, 1, 1, 1, 1, 1, 1],
    [0, 0, 0, -1, 1, 0, 0, 1, -1, 1, -1, 1, -1, 1, -1],
    [0, 1, -1, 0, 0, 0, 0, 1, 1, -1, -1, 1, 1, -1, -1],
    [0, 0, 0, 0, 0, 1, -1, 1, 1, 1, 1, -1, -1, -1, -1],
    [0, 0, 0, 0, 0, 0, 0, 1, -1, -1, 1, 1, -1, -1, 1],
    [0, 0, 0, 0, 0, 0, 0, 1, -1, 1, -1, -1, 1, -1, 1],
    [0, 0, 0, 0, 0, 0, 0, 1, 1, -1, -1, -1, -1, 1, 1],
    [0, -1, -1, 1, 1, 0, 0, 0, 0, 0, 0, 0, 0, 0, 0],
    [0, 0, 0, 1, 1, -1, -1, 0, 0, 0, 0, 0, 0, 0, 0],
    [0, 1, 1, 1, 1, 1, 1, 3, 3, 3, 3, 3, 3, 3, 3],
    [0, 0, 0, -1, 1, 0, 0, 3, -3, 3, -3, 3, -3, 3, -3],
    [0, 1, -1, 0, 0, 0, 0, 3, 3, -3, -3, 3, 3, -3, -3],
    [0, 0, 0, 0, 0, 1, -1, 3, 3, 3, 3, -3, -3, -3, -3],
    [0, 0, 0, 0, 0, 0, 0, 1, -1, -1, 1, -1, 1, 1, -1],
    [0, 0, 0, 0, 0, 0, 0, 3, 3, 3, 3, 3, 3, 3, 3]],
   [[48, 0, 0, 0, 0, 0, 0, 0, 0, -48, 0, 0, 0, 0, 32],
    [0, 0, 36, 0, 0, 0, 0, -16, 8, 8, 0, -12, 0, 0, -8],
    [0, 0, -36, 0, 0, 0, 0, -16, 8, 8, 0, 12, 0, 0, -8],
    [0, -36, 0, 0, 0, 0, 0, 8, 8, 8, 12, 0, 0, 0, -8],
    [0, 36, 0, 0, 0, 0, 0, 8, 8, 8, -12, 0, 0, 0, -8],
    [0, 0, 0, 36, 0, 0, 0, 8, -16, 8, 0, 0, -12, 0, -8],
    [0, 0, 0, -36, 0, 0, 0, 8, -16, 8, 0, 0, 12, 0, -8],
    [0, -3, -3, -3, 6, 6, 6, 0, 0, 0, 3, 3, 3, 6, 2],
    [0, 3, -3, -3, -6, -6, 6, 0, 0, 0, -3, 3, 3, -6, 2],
    [0, -3, 3, -3, -6, 6, -6, 0, 0, 0, 3, -3, 3, -6, 2],
    [0, 3, 3, -3, 6, -6, -6, 0, 0, 0, -3, -3, 3, 6, 2],
    [0, -3, -3, 3, 6, -6, -6, 0, 0, 0, 3, 3, -3, -6, 2],
    [0, 3, -3, 3, -6, 6, -6, 0, 0, 0, -3, 3, -3, 6, 2],
    [0, -3, 3, 3, -6, -6, 6, 0, 0, 0, 3, -3, -3, 6, 2],
    [0, 3, 3, 3, 6, 6, 6, 0, 0, 0, -3, -3, -3, -6, 2]])

def cascaded_D3Q19 : Certificate :=
  (24,
   [[1, 1, 1, 1, 1, 1, 1, 1, 1, 1, 1, 1, 1, 1, 1, 1, 1, 1, 1],
    [0, 0, 0, -1, 1, 0, 0, -1, 1, -1, 1, 0, 0, -1, 1, 0, 0, -1, 1],
    [0, 1, -1, 0, 0, 0, 0, 1, 1, -1, -1, 1, -1, 0, 0, 1, -1, 0, 0],
    [0, 0, 0, 0, 0, 1, -1, 0, 0, 0, 0, 1, 1, 1, 1, -1, -1, -1, -1],
    [0, 0, 0, 0, 0, 0, 0, -1, 1, 1, -1, 0, 0, 0, 0, 0, 0, 0, 0],
    [0, 0, 0, 0, 0, 0, 0, 0, 0, 0, 0, 0, 0, -1, 1, 0, 0, 1, -1],
    [0, 0, 0, 0, 0, 0, 0, 0, 0, 0, 0, 1, -1, 0, 0, -1, 1, 0, 0],
    [0, -1, -1, 1, 1, 0, 0, 0, 0, 0, 0, -1, -1, 1, 1, -1, -1, 1, 1],
    [0, 0, 0, 1, 1, -1, -1, 1, 1, 1, 1, -1, -1, 0, 0, -1, -1, 0, 0],
    [0, 1, 1, 1, 1, 1, 1, 2, 2, 2, 2, 2, 2, 2, 2, 2, 2, 2, 2],
    [0, 0, 0, 0, 0, 0, 0, -1, 1, -1, 1, 0, 0, -1, 1, 0, 0, -1, 1],
    [0, 0, 0, 0, 0, 0, 0, 1, 1, -1, -1, 1, -1, 0, 0, 1, -1, 0, 0],
    [0, 0, 0, 0, 0, 0, 0, 0, 0, 0, 0, 1, 1, 1, 1, -1, -1, -1, -1],
    [0, 0, 0, 0, 0, 0, 0, -1, 1, -1, 1, 0, 0, 1, -1, 0, 0, 1, -1],
    [0, 0, 0, 0, 0, 0, 0, 1, 1, -1, -1, -1, 1, 0, 0, -1, 1, 0, 0],
    [0, 0, 0, 0, 0, 0, 0, 0, 0, 0, 0, -1, -1, 1, 1, 1, 1, -1, -1],
    [0, 0, 0, 0, 0, 0, 0, 1, 1, 1, 1, 1, 1, -2, -2, 1, 1, -2, -2],
    [0, 0, 0, 0, 0, 0, 0, 1, 1, 1, 1, -2, -2, 1, 1, -2, -2, 1, 1],
    [0, 0, 0, 0, 0, 0, 0, 1, 1, 1, 1, 1, 1, 1, 1, 1, 1, 1, 1]],
   [[24, 0, 0, 0, 0, 0, 0, 0, 0, -24, 0, 0, 0, 0, 0, 0, 0, 0, 24],
    [0, 0, 12, 0, 0, 0, 0, -8, 4, 4, 0, -12, 0, 0, 0, 0, -4, 0, -8],
    [0, 0, -12, 0, 0, 0, 0, -8, 4, 4, 0, 12, 0, 0, 0, 0, -4, 0, -8],
    [0, -12, 0, 0, 0, 0, 0, 4, 4, 4, 12, 0, 0, 0, 0, 0, 0, -4, -8],
    [0, 12, 0, 0, 0, 0, 0, 4, 4, 4, -12, 0, 0, 0, 0, 0, 0, -4, -8],
    [0, 0, 0, 12, 0, 0, 0, 4, -8, 4, 0, 0, -12, 0, 0, 0, 4, 4, -8],
    [0, 0, 0, -12, 0, 0, 0, 4, -8, 4, 0, 0, 12, 0, 0, 0, 4, 4, -8],
    [0, 0, 0, 0, -6, 0, 0, 0, 0, 0, -3, 3, 0, -3, 3, 0, 2, 2, 2],
    [0, 0, 0, 0, 6, 0, 0, 0, 0, 0, 3, 3, 0, 3, 3, 0, 2, 2, 2],
    [0, 0, 0, 0, 6, 0, 0, 0, 0, 0, -3, -3, 0, -3, -3, 0, 2, 2, 2],
    [0, 0, 0, 0, -6, 0, 0, 0, 0, 0, 3, -3, 0, 3, -3, 0, 2, 2, 2],
    [0, 0, 0, 0, 0, 0, 6, 0, 0, 0, 0, 3, 3, 0, -3, -3, 0, -2, 2],
    [0, 0, 0, 0, 0, 0, -6, 0, 0, 0, 0, -3, 3, 0, 3, -3, 0, -2, 2],
    [0, 0, 0, 0, 0, -6, 0, 0, 0, 0, -3, 0, 3, 3, 0, 3, -2, 0, 2],
    [0, 0, 0, 0, 0, 6, 0, 0, 0, 0, 3, 0, 3, -3, 0, 3, -2, 0, 2],
    [0, 0, 0, 0, 0, 0, -6, 0, 0, 0, 0, 3, -3, 0, -3, 3, 0, -2, 2],
    [0, 0, 0, 0, 0, 0, 6, 0, 0, 0, 0, -3, -3, 0, 3, 3, 0, -2, 2],
    [0, 0, 0, 0, 0, 6, 0, 0, 0, 0, -3, 0, -3, 3, 0, -3, -2, 0, 2],
    [0, 0, 0, 0, 0, -6, 0, 0, 0, 0, 3, 0, -3, -3, 0, -3, -2, 0, 2]])

def cascaded_D3Q27 : Certificate :=
  (24,
   [[1, 1, 1, 1, 1, 1, 1, 1, 1, 1, 1, 1, 1, 1, 1, 1, 1, 1, 1, 1, 1, 1, 1, 1, 1, 1, 1],
    [0, 0, 0, -1, 1, 0, 0, -1, 1, -1, 1, 0, 0, -1, 1, 0, 0, -1, 1, 1, -1, 1, -1, 1, -1, 1, -1],
    [0, 1, -1, 0, 0, 0, 0, 1, 1, -1, -1, 1, -1, 0, 0, 1, -1, 0, 0, 1, 1, -1, -1, 1, 1, -1, -1],
    [0, 0, 0, 0, 0, 1, -1, 0, 0, 0, 0, 1, 1, 1, 1, -1, -1, -1, -1, 1, 1, 1, 1, -1, -1, -1, -1],
    [0, 0, 0, 0, 0, 0, 0, -1, 1, 1, -1, 0, 0, 0, 0, 0, 0, 0, 0, 1, -1, -1, 1, 1, -1, -1, 1],
    [0, 0, 0, 0, 0, 0, 0, 0, 0, 0, 0, 0, 0, -1, 1, 0, 0, 1, -1, 1, -1, 1, -1, -1, 1, -1, 1],
    [0, 0, 0, 0, 0, 0, 0, 0, 0, 0, 0, 1, -1, 0, 0, -1, 1, 0, 0, 1, 1, -1, -1, -1, -1, 1, 1],
    [0, -1, -1, 1, 1, 0, 0, 0, 0, 0, 0, -1, -1, 1, 1, -1, -1, 1, 1, 0, 0, 0, 0, 0, 0, 0, 0],
    [0, 0, 0, 1, 1, -1, -1, 1, 1, 1, 1, -1, -1, 0, 0, -1, -1, 0, 0, 0, 0, 0, 0, 0, 0, 0, 0],
    [0, 1, 1, 1, 1, 1, 1, 2, 2, 2, 2, 2, 2, 2, 2, 2, 2, 2, 2, 3, 3, 3, 3, 3, 3, 3, 3],
    [0, 0, 0, 0, 0, 0, 0, -1, 1, -1, 1, 0, 0, -1, 1, 0, 0, -1, 1, 2, -2, 2, -2, 2, -2, 2, -2],
    [0, 0, 0, 0, 0, 0, 0, 1, 1, -1, -1, 1, -1, 0, 0, 1, -1, 0, 0, 2, 2, -2, -2, 2, 2, -2, -2],
    [0, 0, 0, 0, 0, 0, 0, 0, 0, 0, 0, 1, 1, 1, 1, -1, -1, -1, -1, 2, 2, 2, 2, -2, -2, -2, -2],
    [0, 0, 0, 0, 0, 0, 0, -1, 1, -1, 1, 0, 0, 1, -1, 0, 0, 1, -1, 0, 0, 0, 0, 0, 0, 0, 0],
    [0, 0, 0, 0, 0, 0, 0, 1, 1, -1, -1, -1, 1, 0, 0, -1, 1, 0, 0, 0, 0, 0, 0, 0, 0, 0, 0],
    [0, 0, 0, 0, 0, 0, 0, 0, 0, 0, 0, -1, -1, 1, 1, 1, 1, -1, -1, 0, 0, 0, 0, 0, 0, 0, 0],
    [0, 0, 0, 0, 0, 0, 0, 0, 0, 0, 0, 0, 0, 0, 0, 0, 0, 0, 0, 1, -1, -1, 1, -1, 1, 1, -1],
    [0, 0, 0, 0, 0, 0, 0, 1, 1, 1, 1, 1, 1, -2, -2, 1, 1, -2, -2, 0, 0, 0, 0, 0, 0, 0, 0],
    [0, 0, 0, 0, 0, 0, 0, 1, 1, 1, 1, -2, -2, 1, 1, -2, -2, 1, 1, 0, 0, 0, 0, 0, 0, 0, 0],
    [0, 0, 0, 0, 0, 0, 0, 1, 1, 1, 1, 1, 1, 1, 1, 1, 1, 1, 1, 3, 3, 3, 3, 3, 3, 3, 3],
    [0, 0, 0, 0, 0, 0, 0, 0, 0, 0, 0, 0, 0, 0, 0, 0, 0, 0, 0, 1, 1, -1, -1, -1, -1, 1, 1],
    [0, 0, 0, 0, 0, 0, 0, 0, 0, 0, 0, 0, 0, 0, 0, 0, 0, 0, 0, 1, -1, 1, -1, -1, 1, -1, 1],
    [0, 0, 0, 0, 0, 0, 0, 0, 0, 0, 0, 0, 0, 0, 0, 0, 0, 0, 0, 1, -1, -1, 1, 1, -1, -1, 1],
    [0, 0, 0, 0, 0, 0, 0, 0, 0, 0, 0, 0, 0, 0, 0, 0, 0, 0, 0, 1, 1, 1, 1, -1, -1, -1, -1],
    [0, 0, 0, 0, 0, 0, 0, 0, 0, 0, 0, 0, 0, 0, 0, 0, 0, 0, 0, 1, 1, -1, -1, 1, 1, -1, -1],
    [0, 0, 0, 0, 0, 0, 0, 0, 0, 0, 0, 0, 0, 0, 0, 0, 0, 0, 0, 1, -1, 1, -1, 1, -1, 1, -1],
    [0, 0, 0, 0, 0, 0, 0, 0, 0, 0, 0, 0, 0, 0, 0, 0, 0, 0, 0, 1, 1, 1, 1, 1, 1, 1, 1]],
   [[24, 0, 0, 0, 0, 0, 0, 0, 0, -24, 0, 0, 0, 0, 0, 0, 0, 0, 0, 24, 0, 0, 0, 0, 0, 0, -24],
    [0, 0, 12, 0, 0, 0, 0, -8, 4, 4, 0, -12, 0, 0, 0, 0, 0, -4, 0, -8, 0, 0, 0, 0, 12, 0, 12],
    [0, 0, -12, 0, 0, 0, 0, -8, 4, 4, 0, 12, 0, 0, 0, 0, 0, -4, 0, -8, 0, 0, 0, 0, -12, 0, 12],
    [0, -12, 0, 0, 0, 0, 0, 4, 4, 4, 12, 0, 0, 0, 0, 0, 0, 0, -4, -8, 0, 0, 0, 0, 0, -12, 12],
    [0, 12, 0, 0, 0, 0, 0, 4, 4, 4, -12, 0, 0, 0, 0, 0, 0, 0, -4, -8, 0, 0, 0, 0, 0, 12, 12],
    [0, 0, 0, 12, 0, 0, 0, 4, -8, 4, 0, 0, -12, 0, 0, 0, 0, 4, 4, -8, 0, 0, 0, 12, 0, 0, 12],
    [0, 0, 0, -12, 0, 0, 0, 4, -8, 4, 0, 0, 12, 0, 0, 0, 0, 4, 4, -8, 0, 0, 0, -12, 0, 0, 12],
    [0, 0, 0, 0, -6, 0, 0, 0, 0, 0, -3, 3, 0, -3, 3, 0, 0, 2, 2, 2, 0, 0, 6, 0, -6, 6, -6],
    [0, 0, 0, 0, 6, 0, 0, 0, 0, 0, 3, 3, 0, 3, 3, 0, 0, 2, 2, 2, 0, 0, -6, 0, -6, -6, -6],
    [0, 0, 0, 0, 6, 0, 0, 0, 0, 0, -3, -3, 0, -3, -3, 0, 0, 2, 2, 2, 0, 0, -6, 0, 6, 6, -6],
    [0, 0, 0, 0, -6, 0, 0, 0, 0, 0, 3, -3, 0, 3, -3, 0, 0, 2, 2, 2, 0, 0, 6, 0, 6, -6, -6],
    [0, 0, 0, 0, 0, 0, 6, 0, 0, 0, 0, 3, 3, 0, -3, -3, 0, 0, -2, 2, -6, 0, 0, -6, -6, 0, -6],
    [0, 0, 0, 0, 0, 0, -6, 0, 0, 0, 0, -3, 3, 0, 3, -3, 0, 0, -2, 2, 6, 0, 0, -6, 6, 0, -6],
    [0, 0, 0, 0, 0, -6, 0, 0, 0, 0, -3, 0, 3, 3, 0, 3, 0, -2, 0, 2, 0, 6, 0, -6, 0, 6, -6],
    [0, 0, 0, 0, 0, 6, 0, 0, 0, 0, 3, 0, 3, -3, 0, 3, 0, -2, 0, 2, 0, -6, 0, -6, 0, -6, -6],
    [0, 0, 0, 0, 0, 0, -6, 0, 0, 0, 0, 3, -3, 0, -3, 3, 0, 0, -2, 2, 6, 0, 0, 6, -6, 0, -6],
    [0, 0, 0, 0, 0, 0, 6, 0, 0, 0, 0, -3, -3, 0, 3, 3, 0, 0, -2, 2, -6, 0, 0, 6, 6, 0, -6],
    [0, 0, 0, 0, 0, 6, 0, 0, 0, 0, -3, 0, -3, 3, 0, -3, 0, -2, 0, 2, 0, -6, 0, 6, 0, 6, -6],
    [0, 0, 0, 0, 0, -6, 0, 0, 0, 0, 3, 0, -3, -3, 0, -3, 0, -2, 0, 2, 0, 6, 0, 6, 0, -6, -6],
    [0, 0, 0, 0, 0, 0, 0, 0, 0, 0, 0, 0, 0, 0, 0, 0, 3, 0, 0, 0, 3, 3, 3, 3, 3, 3, 3],
    [0, 0, 0, 0, 0, 0, 0, 0, 0, 0, 0, 0, 0, 0, 0, 0, -3, 0, 0, 0, 3, -3, -3, 3, 3, -3, 3],
    [0, 0, 0, 0, 0, 0, 0, 0, 0, 0, 0, 0, 0, 0, 0, 0, -3, 0, 0, 0, -3, 3, -3, 3, -3, 3, 3],
    [0, 0, 0, 0, 0, 0, 0, 0, 0, 0, 0, 0, 0, 0, 0, 0, 3, 0, 0, 0, -3, -3, 3, 3, -3, -3, 3],
    [0, 0, 0, 0, 0, 0, 0, 0, 0, 0, 0, 0, 0, 0, 0, 0, -3, 0, 0, 0, -3, -3, 3, -3, 3, 3, 3],
    [0, 0, 0, 0, 0, 0, 0, 0, 0, 0, 0, 0, 0, 0, 0, 0, 3, 0, 0, 0, -3, 3, -3, -3, 3, -3, 3],
    [0, 0, 0, 0, 0, 0, 0, 0, 0, 0, 0, 0, 0, 0, 0, 0, 3, 0, 0, 0, 3, -3, -3, -3, -3, 3, 3],
    [0, 0, 0, 0, 0, 0, 0, 0, 0, 0, 0, 0, 0, 0, 0, 0, -3, 0, 0, 0, 3, 3, 3, -3, -3, -3, 3]])

def orthogonal_D2Q9 : Certificate :=
  (72,
   [[1, 1, 1, 1, 1, 1, 1, 1, 1],
    [0, 0, 0, -1, 1, -1, 1, -1, 1],
    [0, 1, -1, 0, 0, 1, 1, -1, -1],
    [-2, 1, 1, 1, 1, 4, 4, 4, 4],
    [0, -1, -1, 1, 1, 0, 0, 0, 0],
    [0, 0, 0, 0, 0, -1, 1, 1, -1],
    [0, 0, 0, 1, -1, -2, 2, -2, 2],
    [0, -1, 1, 0, 0, 2, 2, -2, -2],
    [2, -4, -4, -4, -4, 8, 8, 8, 8]],
   [[32, 0, 0, -16, 0, 0, 0, 0, 4],
    [8, 0, 24, 2, -18, 0, 0, -12, -2],
    [8, 0, -24, 2, -18, 0, 0, 12, -2],
    [8, -24, 0, 2, 18, 0, 12, 0, -2],
    [8, 24, 0, 2, 18, 0, -12, 0, -2],
    [2, -6, 6, 2, 0, -18, -6, 6, 1],
    [2, 6, 6, 2, 0, 18, 6, 6, 1],
    [2, -6, -6, 2, 0, 18, -6, -6, 1],
    [2, 6, -6, 2, 0, -18, 6, -6, 1]])

def orthogonal_D3Q15 : Certificate :=
  (144,
   [[1, 1, 1, 1, 1, 1, 1, 1, 1, 1, 1, 1, 1, 1, 1],
    [0, 0, 0, -1, 1, 0, 0, 1, -1, 1, -1, 1, -1, 1, -1],
    [0, 1, -1, 0, 0, 0, 0, 1, 1, -1, -1, 1, 1, -1, -1],
    [0, 0, 0, 0, 0, 1, -1, 1, 1, 1, 1, -1, -1, -1, -1],
    [-1, 0, 0, 0, 0, 0, 0, 2, 2, 2, 2, 2, 2, 2, 2],
    [4, -2, -2, -2, -2, -2, -2, 4, 4, 4, 4, 4, 4, 4, 4],
    [0, 0, 0, 2, -2, 0, 0, 4, -4, 4, -4, 4, -4, 4, -4],
    [0, -2, 2, 0, 0, 0, 0, 4, 4, -4, -4, 4, 4, -4, -4],
    [0, 0, 0, 0, 0, -2, 2, 4, 4, 4, 4, -4, -4, -4, -4],
    [0, -1, -1, 2, 2, -1, -1, 0, 0, 0, 0, 0, 0, 0, 0],
    [0, 1, 1, 0, 0, -1, -1, 0, 0, 0, 0, 0, 0, 0, 0],
    [0, 0, 0, 0, 0, 0, 0, 1, -1, -1, 1, 1, -1, -1, 1],
    [0, 0, 0, 0, 0, 0, 0, 1, 1, -1, -1, -1, -1, 1, 1],
    [0, 0, 0, 0, 0, 0, 0, 1, -1, 1, -1, -1, 1, -1, 1],
    [0, 0, 0, 0, 0, 0, 0, 1, -1, -1, 1, -1, 1, 1, -1]],
   [[32, 0, 0, 0, -48, 16, 0, 0, 0, 0, 0, 0, 0, 0, 0],
    [16, 0, 48, 0, 0, -4, 0, -12, 0, -12, 36, 0, 0, 0, 0],
    [16, 0, -48, 0, 0, -4, 0, 12, 0, -12, 36, 0, 0, 0, 0],
    [16, -48, 0, 0, 0, -4, 12, 0, 0, 24, 0, 0, 0, 0, 0],
    [16, 48, 0, 0, 0, -4, -12, 0, 0, 24, 0, 0, 0, 0, 0],
    [16, 0, 0, 48, 0, -4, 0, 0, -12, -12, -36, 0, 0, 0, 0],
    [16, 0, 0, -48, 0, -4, 0, 0, 12, -12, -36, 0, 0, 0, 0],
    [2, 6, 6, 6, 6, 1, 3, 3, 3, 0, 0, 18, 18, 18, 18],
    [2, -6, 6, 6, 6, 1, -3, 3, 3, 0, 0, -18, 18, -18, -18],
    [2, 6, -6, 6, 6, 1, 3, -3, 3, 0, 0, -18, -18, 18, -18],
    [2, -6, -6, 6, 6, 1, -3, -3, 3, 0, 0, 18, -18, -18, 18],
    [2, 6, 6, -6, 6, 1, 3, 3, -3, 0, 0, 18, -18, -18, -18],
    [2, -6, 6, -6, 6, 1, -3, 3, -3, 0, 0, -18, -18, 18, 18],
    [2, 6, -6, -6, 6, 1, 3, -3, -3, 0, 0, -18, 18, -18, 18],
    [2, -6, -6, -6, 6, 1, -3, -3, -3, 0, 0, 18, 18, 18, -18]])

def orthogonal_D3Q19 : Certificate :=
  (144,
   [[1, 1, 1, 1, 1, 1, 1, 1, 1, 1, 1, 1, 1, 1, 1, 1, 1, 1, 1],
    [0, 0, 0, -1, 1, 0, 0, -1, 1, -1, 1, 0, 0, -1, 1, 0, 0, -1, 1],
    [0, 1, -1, 0, 0, 0, 0, 1, 1, -1, -1, 1, -1, 0, 0, 1, -1, 0, 0],
    [0, 0, 0, 0, 0, 1, -1, 0, 0, 0, 0, 1, 1, 1, 1, -1, -1, -1, -1],
    [-1, 0, 0, 0, 0, 0, 0, 1, 1, 1, 1, 1, 1, 1, 1, 1, 1, 1, 1],
    [1, -2, -2, -2, -2, -2, -2, 1, 1, 1, 1, 1, 1, 1, 1, 1, 1, 1, 1],
    [0, 0, 0, 2, -2, 0, 0, -1, 1, -1, 1, 0, 0, -1, 1, 0, 0, -1, 1],
    [0, -2, 2, 0, 0, 0, 0, 1, 1, -1, -1, 1, -1, 0, 0, 1, -1, 0, 0],
    [0, 0, 0, 0, 0, -2, 2, 0, 0, 0, 0, 1, 1, 1, 1, -1, -1, -1, -1],
    [0, -1, -1, 2, 2, -1, -1, 1, 1, 1, 1, -2, -2, 1, 1, -2, -2, 1, 1],
    [0, 1, 1, 0, 0, -1, -1, 1, 1, 1, 1, 0, 0, -1, -1, 0, 0, -1, -1],
    [0, 0, 0, 0, 0, 0, 0, -1, 1, 1, -1, 0, 0, 0, 0, 0, 0, 0, 0],
    [0, 0, 0, 0, 0, 0, 0, 0, 0, 0, 0, 1, -1, 0, 0, -1, 1, 0, 0],
    [0, 0, 0, 0, 0, 0, 0, 0, 0, 0, 0, 0, 0, -1, 1, 0, 0, 1, -1],
    [0, 1, 1, -2, -2, 1, 1, 1, 1, 1, 1, -2, -2, 1, 1, -2, -2, 1, 1],
    [0, -1, -1, 0, 0, 1, 1, 1, 1, 1, 1, 0, 0, -1, -1, 0, 0, -1, -1],
    [0, 0, 0, 0, 0, 0, 0, -1, 1, -1, 1, 0, 0, 1, -1, 0, 0, 1, -1],
    [0, 0, 0, 0, 0, 0, 0, -1, -1, 1, 1, 1, -1, 0, 0, 1, -1, 0, 0],
    [0, 0, 0, 0, 0, 0, 0, 0, 0, 0, 0, -1, -1, 1, 1, 1, 1, -1, -1]],
   [[48, 0, 0, 0, -72, 24, 0, 0, 0, 0, 0, 0, 0, 0, 0, 0, 0, 0, 0],
    [8, 0, 24, 0, 0, -8, 0, -24, 0, -6, 18, 0, 0, 0, 6, -18, 0, 0, 0],
    [8, 0, -24, 0, 0, -8, 0, 24, 0, -6, 18, 0, 0, 0, 6, -18, 0, 0, 0],
    [8, -24, 0, 0, 0, -8, 24, 0, 0, 12, 0, 0, 0, 0, -12, 0, 0, 0, 0],
    [8, 24, 0, 0, 0, -8, -24, 0, 0, 12, 0, 0, 0, 0, -12, 0, 0, 0, 0],
    [8, 0, 0, 24, 0, -8, 0, 0, -24, -6, -18, 0, 0, 0, 6, 18, 0, 0, 0],
    [8, 0, 0, -24, 0, -8, 0, 0, 24, -6, -18, 0, 0, 0, 6, 18, 0, 0, 0],
    [4, -12, 12, 0, 6, 2, -6, 6, 0, 3, 9, -36, 0, 0, 3, 9, -18, -18, 0],
    [4, 12, 12, 0, 6, 2, 6, 6, 0, 3, 9, 36, 0, 0, 3, 9, 18, -18, 0],
    [4, -12, -12, 0, 6, 2, -6, -6, 0, 3, 9, 36, 0, 0, 3, 9, -18, 18, 0],
    [4, 12, -12, 0, 6, 2, 6, -6, 0, 3, 9, -36, 0, 0, 3, 9, 18, 18, 0],
    [4, 0, 12, 12, 6, 2, 0, 6, 6, -6, 0, 0, 36, 0, -6, 0, 0, 18, -18],
    [4, 0, -12, 12, 6, 2, 0, -6, 6, -6, 0, 0, -36, 0, -6, 0, 0, -18, -18],
    [4, -12, 0, 12, 6, 2, -6, 0, 6, 3, -9, 0, 0, -36, 3, -9, 18, 0, 18],
    [4, 12, 0, 12, 6, 2, 6, 0, 6, 3, -9, 0, 0, 36, 3, -9, -18, 0, 18],
    [4, 0, 12, -12, 6, 2, 0, 6, -6, -6, 0, 0, -36, 0, -6, 0, 0, 18, 18],
    [4, 0, -12, -12, 6, 2, 0, -6, -6, -6, 0, 0, 36, 0, -6, 0, 0, -18, 18],
    [4, -12, 0, -12, 6, 2, -6, 0, -6, 3, -9, 0, 0, 36, 3, -9, 18, 0, -18],
    [4, 12, 0, -12, 6, 2, 6, 0, -6, 3, -9, 0, 0, -36, 3, -9, -18, 0, -18]])

def orthogonal_D3Q27 : Certificate :=
  (216,
   [[1, 1, 1, 1, 1, 1, 1, 1, 1, 1, 1, 1, 1, 1, 1, 1, 1, 1, 1, 1, 1, 1, 1, 1, 1, 1, 1],
    [0, 0, 0, -1, 1, 0, 0, -1, 1, -1, 1, 0, 0, -1, 1, 0, 0, -1, 1, 1, -1, 1, -1, 1, -1, 1, -1],
    [0, 1, -1, 0, 0, 0, 0, 1, 1, -1, -1, 1, -1, 0, 0, 1, -1, 0, 0, 1, 1, -1, -1, 1, 1, -1, -1],
    [0, 0, 0, 0, 0, 1, -1, 0, 0, 0, 0, 1, 1, 1, 1, -1, -1, -1, -1, 1, 1, 1, 1, -1, -1, -1, -1],
    [0, 0, 0, 0, 0, 0, 0, -1, 1, 1, -1, 0, 0, 0, 0, 0, 0, 0, 0, 1, -1, -1, 1, 1, -1, -1, 1],
    [0, 0, 0, 0, 0, 0, 0, 0, 0, 0, 0, 0, 0, -1, 1, 0, 0, 1, -1, 1, -1, 1, -1, -1, 1, -1, 1],
    [0, 0, 0, 0, 0, 0, 0, 0, 0, 0, 0, 1, -1, 0, 0, -1, 1, 0, 0, 1, 1, -1, -1, -1, -1, 1, 1],
    [0, -1, -1, 1, 1, 0, 0, 0, 0, 0, 0, -1, -1, 1, 1, -1, -1, 1, 1, 0, 0, 0, 0, 0, 0, 0, 0],
    [0, 1, 1, 1, 1, -2, -2, 2, 2, 2, 2, -1, -1, -1, -1, -1, -1, -1, -1, 0, 0, 0, 0, 0, 0, 0, 0],
    [-2, -1, -1, -1, -1, -1, -1, 0, 0, 0, 0, 0, 0, 0, 0, 0, 0, 0, 0, 1, 1, 1, 1, 1, 1, 1, 1],
    [0, 0, 0, 4, -4, 0, 0, 1, -1, 1, -1, 0, 0, 1, -1, 0, 0, 1, -1, 2, -2, 2, -2, 2, -2, 2, -2],
    [0, -4, 4, 0, 0, 0, 0, -1, -1, 1, 1, -1, 1, 0, 0, -1, 1, 0, 0, 2, 2, -2, -2, 2, 2, -2, -2],
    [0, 0, 0, 0, 0, -4, 4, 0, 0, 0, 0, -1, -1, -1, -1, 1, 1, 1, 1, 2, 2, 2, 2, -2, -2, -2, -2],
    [0, 0, 0, 0, 0, 0, 0, -1, 1, -1, 1, 0, 0, 1, -1, 0, 0, 1, -1, 0, 0, 0, 0, 0, 0, 0, 0],
    [0, 0, 0, 0, 0, 0, 0, 1, 1, -1, -1, -1, 1, 0, 0, -1, 1, 0, 0, 0, 0, 0, 0, 0, 0, 0, 0],
    [0, 0, 0, 0, 0, 0, 0, 0, 0, 0, 0, -1, -1, 1, 1, 1, 1, -1, -1, 0, 0, 0, 0, 0, 0, 0, 0],
    [0, 0, 0, 0, 0, 0, 0, 0, 0, 0, 0, 0, 0, 0, 0, 0, 0, 0, 0, 1, -1, -1, 1, -1, 1, 1, -1],
    [4, 0, 0, 0, 0, 0, 0, -1, -1, -1, -1, -1, -1, -1, -1, -1, -1, -1, -1, 1, 1, 1, 1, 1, 1, 1, 1],
    [0, 2, 2, -4, -4, 2, 2, 1, 1, 1, 1, -2, -2, 1, 1, -2, -2, 1, 1, 0, 0, 0, 0, 0, 0, 0, 0],
    [0, -2, -2, 0, 0, 2, 2, 1, 1, 1, 1, 0, 0, -1, -1, 0, 0, -1, -1, 0, 0, 0, 0, 0, 0, 0, 0],
    [0, 0, 0, 0, 0, 0, 0, 0, 0, 0, 0, -2, 2, 0, 0, 2, -2, 0, 0, 1, 1, -1, -1, -1, -1, 1, 1],
    [0, 0, 0, 0, 0, 0, 0, 0, 0, 0, 0, 0, 0, 2, -2, 0, 0, -2, 2, 1, -1, 1, -1, -1, 1, -1, 1],
    [0, 0, 0, 0, 0, 0, 0, 2, -2, -2, 2, 0, 0, 0, 0, 0, 0, 0, 0, 1, -1, -1, 1, 1, -1, -1, 1],
    [0, 0, 0, -4, 4, 0, 0, 2, -2, 2, -2, 0, 0, 2, -2, 0, 0, 2, -2, 1, -1, 1, -1, 1, -1, 1, -1],
    [0, 4, -4, 0, 0, 0, 0, -2, -2, 2, 2, -2, 2, 0, 0, -2, 2, 0, 0, 1, 1, -1, -1, 1, 1, -1, -1],
    [0, 0, 0, 0, 0, 4, -4, 0, 0, 0, 0, -2, -2, -2, -2, 2, 2, 2, 2, 1, 1, 1, 1, -1, -1, -1, -1],
    [-8, 4, 4, 4, 4, 4, 4, -2, -2, -2, -2, -2, -2, -2, -2, -2, -2, -2, -2, 1, 1, 1, 1, 1, 1, 1, 1]],
   [[8, 0, 0, 0, 0, 0, 0, 0, 0, -24, 0, 0, 0, 0, 0, 0, 0, 24, 0, 0, 0, 0, 0, 0, 0, 0, -8],
    [8, 0, 12, 0, 0, 0, 0, -18, 6, -12, 0, -12, 0, 0, 0, 0, 0, 0, 6, -18, 0, 0, 0, 0, 12, 0, 4],
    [8, 0, -12, 0, 0, 0, 0, -18, 6, -12, 0, 12, 0, 0, 0, 0, 0, 0, 6, -18, 0, 0, 0, 0, -12, 0, 4],
    [8, -12, 0, 0, 0, 0, 0, 18, 6, -12, 12, 0, 0, 0, 0, 0, 0, 0, -12, 0, 0, 0, 0, -12, 0, 0, 4],
    [8, 12, 0, 0, 0, 0, 0, 18, 6, -12, -12, 0, 0, 0, 0, 0, 0, 0, -12, 0, 0, 0, 0, 12, 0, 0, 4],
    [8, 0, 0, 12, 0, 0, 0, 0, -12, -12, 0, 0, -12, 0, 0, 0, 0, 0, 6, 18, 0, 0, 0, 0, 0, 12, 4],
    [8, 0, 0, -12, 0, 0, 0, 0, -12, -12, 0, 0, 12, 0, 0, 0, 0, 0, 6, 18, 0, 0, 0, 0, 0, -12, 4],
    [8, -12, 12, 0, -18, 0, 0, 0, 12, 0, 3, -3, 0, -27, 27, 0, 0, -6, 3, 9, 0, 0, 18, 6, -6, 0, -2],
    [8, 12, 12, 0, 18, 0, 0, 0, 12, 0, -3, -3, 0, 27, 27, 0, 0, -6, 3, 9, 0, 0, -18, -6, -6, 0, -2],
    [8, -12, -12, 0, 18, 0, 0, 0, 12, 0, 3, 3, 0, -27, -27, 0, 0, -6, 3, 9, 0, 0, -18, 6, 6, 0, -2],
    [8, 12, -12, 0, -18, 0, 0, 0, 12, 0, -3, 3, 0, 27, -27, 0, 0, -6, 3, 9, 0, 0, 18, -6, 6, 0, -2],
    [8, 0, 12, 12, 0, 0, 18, -18, -6, 0, 0, -3, -3, 0, -27, -27, 0, -6, -6, 0, -18, 0, 0, 0, -6, -6, -2],
    [8, 0, -12, 12, 0, 0, -18, -18, -6, 0, 0, 3, -3, 0, 27, -27, 0, -6, -6, 0, 18, 0, 0, 0, 6, -6, -2],
    [8, -12, 0, 12, 0, -18, 0, 18, -6, 0, 3, 0, -3, 27, 0, 27, 0, -6, 3, -9, 0, 18, 0, 6, 0, -6, -2],
    [8, 12, 0, 12, 0, 18, 0, 18, -6, 0, -3, 0, -3, -27, 0, 27, 0, -6, 3, -9, 0, -18, 0, -6, 0, -6, -2],
    [8, 0, 12, -12, 0, 0, -18, -18, -6, 0, 0, -3, 3, 0, -27, 27, 0, -6, -6, 0, 18, 0, 0, 0, -6, 6, -2],
    [8, 0, -12, -12, 0, 0, 18, -18, -6, 0, 0, 3, 3, 0, 27, 27, 0, -6, -6, 0, -18, 0, 0, 0, 6, 6, -2],
    [8, -12, 0, -12, 0, 18, 0, 18, -6, 0, 3, 0, 3, 27, 0, -27, 0, -6, 3, -9, 0, -18, 0, 6, 0, 6, -2],
    [8, 12, 0, -12, 0, -18, 0, 18, -6, 0, -3, 0, 3, -27, 0, -27, 0, -6, 3, -9, 0, 18, 0, -6, 0, 6, -2],
    [8, 12, 12, 12, 18, 18, 18, 0, 0, 12, 6, 6, 6, 0, 0, 0, 27, 6, 0, 0, 9, 9, 9, 3, 3, 3, 1],
    [8, -12, 12, 12, -18, -18, 18, 0, 0, 12, -6, 6, 6, 0, 0, 0, -27, 6, 0, 0, 9, -9, -9, -3, 3, 3, 1],
    [8, 12, -12, 12, -18, 18, -18, 0, 0, 12, 6, -6, 6, 0, 0, 0, -27, 6, 0, 0, -9, 9, -9, 3, -3, 3, 1],
    [8, -12, -12, 12, 18, -18, -18, 0, 0, 12, -6, -6, 6, 0, 0, 0, 27, 6, 0, 0, -9, -9, 9, -3, -3, 3, 1],
    [8, 12, 12, -12, 18, -18, -18, 0, 0, 12, 6, 6, -6, 0, 0, 0, -27, 6, 0, 0, -9, -9, 9, 3, 3, -3, 1],
    [8, -12, 12, -12, -18, 18, -18, 0, 0, 12, -6, 6, -6, 0, 0, 0, 27, 6, 0, 0, -9, 9, -9, -3, 3, -3, 1],
    [8, 12, -12, -12, -18, -18, 18, 0, 0, 12, 6, -6, -6, 0, 0, 0, 27, 6, 0, 0, 9, -9, -9, 3, -3, -3, 1],
    [8, -12, -12, -12, 18, 18, 18, 0, 0, 12, -6, -6, -6, 0, 0, 0, -27, 6, 0, 0, 9, 9, 9, -3, -3, -3, 1]])

def default : List (String × Certificate) :=
  [("D2Q9", default_D2Q9),
   ("D3Q27", default_D3Q27),
   ("D3Q19", default_D3Q19),
   ("D3Q15", default_D3Q15),
   ("D3Q7", default_D3Q7)]

def cascaded : List (String × Certificate) :=
  [("D2Q9", cascaded_D2Q9),
   ("D3Q7", cascaded_D3Q7),
   ("D3Q15", cascaded_D3Q15),
   ("D3Q19", cascaded_D3Q19),
   ("D3Q27", cascaded_D3Q27)]

def orthogonal : List (String × Certificate) :=
  [("D2Q9", orthogonal_D2Q9),
   ("D3Q15", orthogonal_D3Q15),
   ("D3Q19", orthogonal_D3Q19),
   ("D3Q27", orthogonal_D3Q27)]

end Lbm.Certificates
