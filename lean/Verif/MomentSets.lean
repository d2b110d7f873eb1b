/-
Model of the moment sets the library offers: `lbmpy/moments.py:512-548` (default sets) and
`lbmpy/methods/default_moment_sets.py` (cascaded and orthogonal sets from the literature).
-/
import Verif.Moments
import Verif.StencilTables
import Mathlib.Algebra.Field.Rat
import Mathlib.Algebra.Order.Ring.Unbundled.Rat

namespace Lbm

/-! ### Polynomials in the moment symbols -/

/-- A sympy polynomial with integer coefficients in `MOMENT_SYMBOLS = x, y, z` (`moments.py:49-50`), as written in the
source. -/
inductive PExpr where
  | const (n : ℤ)
  | var (i : Fin 3)
  | add (a b : PExpr)
  | sub (a b : PExpr)
  | mul (a b : PExpr)
  | pow (a : PExpr) (n : ℕ)
deriving DecidableEq

namespace PExpr

instance : Add PExpr := ⟨add⟩
instance : Sub PExpr := ⟨sub⟩
instance : Mul PExpr := ⟨mul⟩
instance : HPow PExpr ℕ PExpr := ⟨pow⟩
instance (n : ℕ) : OfNat PExpr n := ⟨const n⟩

def x : PExpr := var 0
def y : PExpr := var 1
def z : PExpr := var 2

/-- `moment.subs(…)` of all symbols (`moments.py:408-410, 434-437`); in 2D there is no third component, and the 2D sets
do not contain `z`. -/
def eval {R : Type} [CommRing R] (v : Fin 3 → R) : PExpr → R
  | const n => n
  | var i => v i
  | add a b => a.eval v + b.eval v
  | sub a b => a.eval v - b.eval v
  | mul a b => a.eval v * b.eval v
  | pow a n => a.eval v ^ n

/-- The value on a lattice direction, for integer directions. -/
def at' (c : List ℤ) (p : PExpr) : ℤ := p.eval fun i => c.getD i 0

/-- Adding `c x^m` to a list of terms: like terms are collected, zero terms dropped (`expr.expand()`). -/
def addTerm (c : ℤ) (m : List ℕ) : MPoly ℤ → MPoly ℤ
  | [] => if c = 0 then [] else [(c, m)]
  | (d, n) :: p => if n = m then (if d + c = 0 then p else (d + c, n) :: p) else (d, n) :: addTerm c m p

/-- `p + c q x^m` -/
def addMul (c : ℤ) (m : List ℕ) (q p : MPoly ℤ) : MPoly ℤ :=
  q.foldl (fun p t => addTerm (c * t.1) (List.zipWith (· + ·) m t.2) p) p

def mulM (p q : MPoly ℤ) : MPoly ℤ := p.foldl (fun r t => addMul t.1 t.2 q r) []

def powM (p : MPoly ℤ) : ℕ → MPoly ℤ
  | 0 => [(1, [0, 0, 0])]
  | n + 1 => mulM p (powM p n)

/-- `polynomial_to_exponent_representation` with `dim = 3` (`moments.py:143-172`): expanded terms with their
exponents. The order of the terms is sympy's business and not modelled. -/
def expand : PExpr → MPoly ℤ
  | const n => addTerm n [0, 0, 0] []
  | var i => [(1, [if i = 0 then 1 else 0, if i = 1 then 1 else 0, if i = 2 then 1 else 0])]
  | add a b => addMul 1 [0, 0, 0] b.expand a.expand
  | sub a b => addMul (-1) [0, 0, 0] b.expand a.expand
  | mul a b => mulM a.expand b.expand
  | pow a n => powM a.expand n

/-- `exponent_to_polynomial_representation` (`moments.py:124-135`). -/
def ofExponents (m : List ℕ) : PExpr :=
  (List.zip [x, y, z] m).foldl (fun p t => p * t.1 ^ t.2) (1 : PExpr)

end PExpr

open PExpr

/-! ### Default sets (`moments.py:512-548`) -/

/-- `set(all27) - set(extend_moments_with_permutations(removed))`, in the order of `all27`. The removed permutations
are those of C15; any enumeration of them gives the same difference. -/
def remaining27 (removed : List (List ℕ)) : List PExpr :=
  ((momentsUpToComponentOrder 2 3).filter fun m => m ∉ extendWithPermutations List.dedup removed).map ofExponents

/-- `get_default_moment_set_for_stencil` before sorting (`moments.py:512-548`); `none` is the `NotImplementedError`. -/
def defaultMomentSet (D Q : ℕ) : Option (List PExpr) :=
  if D = 2 ∧ Q = 9 then some ((momentsUpToComponentOrder 2 2).map ofExponents)
  else if D = 3 ∧ Q = 27 then some (remaining27 [])
  else if D = 3 ∧ Q = 19 then some (remaining27 [[1, 2, 2], [1, 1, 2], [2, 2, 2], [1, 1, 1]])
  else if D = 3 ∧ Q = 15 then
    some (remaining27 [[1, 2, 0], [2, 2, 0], [1, 1, 2], [1, 2, 2], [2, 2, 2]] ++
      [6 * (x ^ 2 * y ^ 2 + x ^ 2 * z ^ 2 + y ^ 2 * z ^ 2),
       3 * (x * (y ^ 2 + z ^ 2)),
       3 * (y * (x ^ 2 + z ^ 2)),
       3 * (z * (x ^ 2 + y ^ 2))])
  else if D = 3 ∧ Q = 7 then
    some (remaining27 [[1, 1, 0], [1, 1, 1], [1, 1, 2], [1, 2, 0], [1, 2, 2], [2, 0, 0], [2, 2, 0], [2, 2, 2]] ++
      [x ^ 2 - y ^ 2, x ^ 2 - z ^ 2, x ^ 2 + y ^ 2 + z ^ 2])
  else none

/-! ### Sets from the literature (`methods/default_moment_sets.py`) -/

/-- `have_same_entries(stencil, LBStencil(name))` -/
def sameVelocities (st : List (List ℤ)) (name : String) : Bool :=
  match Tables.lookup name "walberla" with
  | some t => (st.length == t.length) && st.all (· ∈ t) && t.all (· ∈ st)
  | none => false

/-- `cascaded_moment_sets_literature` (`default_moment_sets.py:9-150`); `none` is the `ValueError`. -/
def cascadedMomentSets (st : List (List ℤ)) : Option (List (List PExpr)) :=
  if sameVelocities st "D2Q9" then some
    [[1], [x, y], [x * y, x ^ 2 - y ^ 2], [x ^ 2 + y ^ 2], [x ^ 2 * y, x * y ^ 2], [x ^ 2 * y ^ 2]]
  else if sameVelocities st "D3Q7" then some
    [[1], [x, y, z], [x ^ 2 - y ^ 2, x ^ 2 - z ^ 2], [x ^ 2 + y ^ 2 + z ^ 2]]
  else if sameVelocities st "D3Q15" then some
    [[1], [x, y, z],
     [x * y, x * z, y * z, x ^ 2 - y ^ 2, x ^ 2 - z ^ 2],
     [x ^ 2 + y ^ 2 + z ^ 2],
     [x * (x ^ 2 + y ^ 2 + z ^ 2), y * (x ^ 2 + y ^ 2 + z ^ 2), z * (x ^ 2 + y ^ 2 + z ^ 2)],
     [x * y * z],
     [x ^ 2 * y ^ 2 + x ^ 2 * z ^ 2 + y ^ 2 * z ^ 2]]
  else if sameVelocities st "D3Q19" then some
    [[1], [x, y, z],
     [x * y, x * z, y * z, x ^ 2 - y ^ 2, x ^ 2 - z ^ 2],
     [x ^ 2 + y ^ 2 + z ^ 2],
     [x * y ^ 2 + x * z ^ 2, x ^ 2 * y + y * z ^ 2, x ^ 2 * z + y ^ 2 * z],
     [x * y ^ 2 - x * z ^ 2, x ^ 2 * y - y * z ^ 2, x ^ 2 * z - y ^ 2 * z],
     [x ^ 2 * y ^ 2 - 2 * x ^ 2 * z ^ 2 + y ^ 2 * z ^ 2, x ^ 2 * y ^ 2 + x ^ 2 * z ^ 2 - 2 * y ^ 2 * z ^ 2],
     [x ^ 2 * y ^ 2 + x ^ 2 * z ^ 2 + y ^ 2 * z ^ 2]]
  else if sameVelocities st "D3Q27" then some
    [[1], [x, y, z],
     [x * y, x * z, y * z, x ^ 2 - y ^ 2, x ^ 2 - z ^ 2],
     [x ^ 2 + y ^ 2 + z ^ 2],
     [x * y ^ 2 + x * z ^ 2, x ^ 2 * y + y * z ^ 2, x ^ 2 * z + y ^ 2 * z],
     [x * y ^ 2 - x * z ^ 2, x ^ 2 * y - y * z ^ 2, x ^ 2 * z - y ^ 2 * z],
     [x * y * z],
     [x ^ 2 * y ^ 2 - 2 * x ^ 2 * z ^ 2 + y ^ 2 * z ^ 2, x ^ 2 * y ^ 2 + x ^ 2 * z ^ 2 - 2 * y ^ 2 * z ^ 2],
     [x ^ 2 * y ^ 2 + x ^ 2 * z ^ 2 + y ^ 2 * z ^ 2],
     [x ^ 2 * y * z, x * y ^ 2 * z, x * y * z ^ 2],
     [x ^ 2 * y ^ 2 * z, x ^ 2 * y * z ^ 2, x * y ^ 2 * z ^ 2],
     [x ^ 2 * y ^ 2 * z ^ 2]]
  else none

/-- `mrt_orthogonal_modes_literature` (`default_moment_sets.py:153-241`); `none` is the `NotImplementedError`. For D2Q9
and D3Q27 the source groups the list by order (`sort_moments_into_groups_of_same_order`); here it is one group, as only
the set of modes matters for the statements. -/
def orthogonalModes (st : List (List ℤ)) (weighted : Bool) : Option (List (List PExpr)) :=
  if sameVelocities st "D2Q9" && weighted then
    let sq := x ^ 2 + y ^ 2
    some [[1, x, y, 3 * sq - 2, 2 * x ^ 2 - sq, x * y, (3 * sq - 4) * x, (3 * sq - 4) * y, 9 * sq ^ 2 - 15 * sq + 2]]
  else if sameVelocities st "D3Q15" && weighted then
    let sq := x ^ 2 + y ^ 2 + z ^ 2
    some
      [[1, x, y, z],
       [sq - 1],
       [3 * sq ^ 2 - 9 * sq + 4],
       [(3 * sq - 5) * x, (3 * sq - 5) * y, (3 * sq - 5) * z],
       [3 * x ^ 2 - sq, y ^ 2 - z ^ 2, x * y, y * z, x * z],
       [x * y * z]]
  else if sameVelocities st "D3Q19" && weighted then
    let sq := x ^ 2 + y ^ 2 + z ^ 2
    some
      [[1, x, y, z],
       [sq - 1],
       [3 * sq ^ 2 - 6 * sq + 1],
       [(3 * sq - 5) * x, (3 * sq - 5) * y, (3 * sq - 5) * z],
       [3 * x ^ 2 - sq, y ^ 2 - z ^ 2, x * y, y * z, x * z],
       [(2 * sq - 3) * (3 * x ^ 2 - sq), (2 * sq - 3) * (y ^ 2 - z ^ 2)],
       [(y ^ 2 - z ^ 2) * x, (z ^ 2 - x ^ 2) * y, (x ^ 2 - y ^ 2) * z]]
  else if sameVelocities st "D3Q27" && !weighted then
    let xsq := x ^ 2
    let ysq := y ^ 2
    let zsq := z ^ 2
    some [[
      1,
      x, y, z,
      x * y, x * z, y * z,
      xsq - ysq,
      (xsq + ysq + zsq) - 3 * zsq,
      (xsq + ysq + zsq) - 2,
      3 * (x * ysq + x * zsq) - 4 * x,
      3 * (xsq * y + y * zsq) - 4 * y,
      3 * (xsq * z + ysq * z) - 4 * z,
      x * ysq - x * zsq,
      xsq * y - y * zsq,
      xsq * z - ysq * z,
      x * y * z,
      3 * (xsq * ysq + xsq * zsq + ysq * zsq) - 4 * (xsq + ysq + zsq) + 4,
      3 * (xsq * ysq + xsq * zsq - 2 * ysq * zsq) - 2 * (2 * xsq - ysq - zsq),
      3 * (xsq * ysq - xsq * zsq) - 2 * (ysq - zsq),
      3 * (xsq * y * z) - 2 * (y * z),
      3 * (x * ysq * z) - 2 * (x * z),
      3 * (x * y * zsq) - 2 * (x * y),
      9 * (x * ysq * zsq) - 6 * (x * ysq + x * zsq) + 4 * x,
      9 * (xsq * y * zsq) - 6 * (xsq * y + y * zsq) + 4 * y,
      9 * (xsq * ysq * z) - 6 * (xsq * z + ysq * z) + 4 * z,
      27 * (xsq * ysq * zsq) - 18 * (xsq * ysq + xsq * zsq + ysq * zsq) + 12 * (xsq + ysq + zsq) - 8]]
  else none

/-! ### Lattice weights (`maxwellian_equilibrium.py:24-60`) -/

/-- The table `get_weights.weights` (`maxwellian_equilibrium.py:36-60`). -/
def weightTable (Q absSum : ℕ) : Option ℚ :=
  match Q, absSum with
  | 9, 0 => some (4 / 9) | 9, 1 => some (1 / 9) | 9, 2 => some (1 / 36)
  | 7, 0 => some 0 | 7, 1 => some (1 / 6)
  | 15, 0 => some (2 / 9) | 15, 1 => some (1 / 9) | 15, 3 => some (1 / 72)
  | 19, 0 => some (1 / 3) | 19, 1 => some (1 / 18) | 19, 2 => some (1 / 36)
  | 27, 0 => some (8 / 27) | 27, 1 => some (2 / 27) | 27, 2 => some (1 / 54) | 27, 3 => some (1 / 216)
  | _, _ => none

/-- `get_weights` (`maxwellian_equilibrium.py:24-32`); `none` is the `KeyError`. -/
def getWeights (st : List (List ℤ)) : Option (List ℚ) :=
  st.mapM fun c => weightTable st.length (c.map Int.natAbs).sum

end Lbm
