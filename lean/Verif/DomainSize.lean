/-
Model of `max_domain_size_info.py`.
-/
import Verif.StencilCtor
import Mathlib.Analysis.SpecialFunctions.Pow.Real

namespace Lbm
namespace DomainSize

/-- The quotient of `square_size` and `cube_size` (`max_domain_size_info.py:59-60`, `:66-67`): number of cells, not rounded; a product
of zero is a `ZeroDivisionError`. Real numbers in place of floats. -/
noncomputable def cells (memory : ℝ) (pdfs arrays itemsize : ℕ) : Except PyErr ℝ :=
  if pdfs * arrays = 0 then .error .exception else .ok (memory / itemsize / (pdfs * arrays : ℕ))

/-- `square_size` (`max_domain_size_info.py:47-61`). -/
noncomputable def squareSize (memory : ℝ) (pdfs arrays itemsize : ℕ) : Except PyErr ℝ := do
  return (← cells memory pdfs arrays itemsize) ^ ((1 : ℝ) / 2)

/-- `cube_size` (`max_domain_size_info.py:64-68`). -/
noncomputable def cubeSize (memory : ℝ) (pdfs arrays itemsize : ℕ) : Except PyErr ℝ := do
  return (← cells memory pdfs arrays itemsize) ^ ((1 : ℝ) / 3)

/-- A memory size as the user gives it: a string or a number. -/
inductive Size
  | str (s : List Char)
  | num (x : ℝ)

/-- `str.strip` (ASCII white space only). -/
def strip (s : List Char) : List Char := ((s.dropWhile Char.isWhitespace).reverse.dropWhile Char.isWhitespace).reverse

/-- `convert_memory_size` (`max_domain_size_info.py:71-86`); `float` is python's conversion of strings, `none` its `ValueError`. -/
noncomputable def convert (float : List Char → Option ℝ) : Size → Except PyErr ℝ
  | .num x => .ok x
  | .str s =>
    let m := strip (s.map Char.toLower)
    let quantity (factor : ℝ) : Except PyErr ℝ :=
      match float (m.take (m.length - 2)) with
      | none => .error .valueError
      | some q => .ok (q * factor)
    if ['k', 'b'] <:+ m then quantity 1024
    else if ['m', 'b'] <:+ m then quantity (1024 ^ 2)
    else if ['g', 'b'] <:+ m then quantity (1024 ^ 3)
    else .error .valueError

/-- One row of `cache_domain_size_overview` (`max_domain_size_info.py:93-100`): the name, the size and the three lengths. -/
structure Row where
  mem : String
  size : Size
  d2q9 : ℝ
  d3q19 : ℝ
  d3q27 : ℝ

/-- `cache_domain_size_overview` (`max_domain_size_info.py:89-102`); the dict is the list of its items. -/
noncomputable def overview (float : List Char → Option ℝ) (arrays itemsize : ℕ) : List (String × Size) → Except PyErr (List Row)
  | [] => .ok []
  | (name, size) :: rest => do
    let a ← squareSize (← convert float size) 9 arrays itemsize
    let b ← cubeSize (← convert float size) 19 arrays itemsize
    let c ← cubeSize (← convert float size) 27 arrays itemsize
    return ⟨name, size, a, b, c⟩ :: (← overview float arrays itemsize rest)

/-- The number shown for a length (`max_domain_size_info.py:146-147`, format `.1f`), in tenths; ties (which are decided by the
binary representation in python) go up. -/
noncomputable def shown (x : ℝ) : ℤ := round (10 * x)

end DomainSize
end Lbm
