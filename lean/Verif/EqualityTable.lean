/-
Model of the cells and counts of `moment_equality_table` (`moments.py:629-700`).
-/
import Verif.Moments

namespace Lbm
namespace EqualityTable

/-- a coloured cell: row, column, the moment shown in it and whether it is green -/
structure Cell where
  row : ℕ
  col : ℕ
  moment : List ℕ
  green : Bool
deriving DecidableEq

/-- one row (`moments.py:670-687`); `agree` is whether the difference of the moments is zero -/
def rowCells (agree : List ℕ → Bool) (columns order : ℕ) (moments : List (List ℕ)) : List Cell :=
  (moments.zip (List.range' 1 (columns - 1))).map fun p => ⟨order + 1, p.2, p.1, agree p.1⟩

/-- the cells of the table (`moments.py:659-689`) -/
def cells (agree : List ℕ → Bool) (dim maxOrder : ℕ) : Option (List Cell) :=
  ((List.range (maxOrder + 1)).mapM fun o => momentsOfOrder o dim false).map fun ml =>
    let columns := (ml.map List.length).foldl max 0 + 1
    ml.zipIdx.flatMap fun p => rowCells agree columns p.2 p.1

/-- `matched_moments` and `non_matched_moments` (`moments.py:680-685`) -/
def count (cs : List Cell) (green : Bool) : ℕ :=
  ((cs.filter fun c => c.green == green).map fun c => momentMultiplicity c.moment).sum

end EqualityTable
end Lbm
