/-
Certificates for C52 (`Props/ShiftMatrix.lean`), generated mechanically: for the default and cascaded moment sets, the expanded
polynomials and, for each of them, every non-zero divided derivative as a combination of the other polynomials, times a
common denominator. The kernel checks them.
-/
import Verif.MomentSets

namespace Lbm.Expansions

def default_D2Q9 : ℤ × List (MPoly ℤ × List ((ℕ × ℕ × ℕ) × List (ℕ × ℤ))) :=
  (1,
   [([(1, [0, 0, 0])],
     []),
    ([(1, [0, 1, 0])],
     [((0, 1, 0), [(0, 1)])]),
    ([(1, [0, 2, 0])],
     [((0, 1, 0), [(1, 2)]), ((0, 2, 0), [(0, 1)])]),
    ([(1, [1, 0, 0])],
     [((1, 0, 0), [(0, 1)])]),
    ([(1, [1, 1, 0])],
     [((0, 1, 0), [(3, 1)]), ((1, 0, 0), [(1, 1)]), ((1, 1, 0), [(0, 1)])]),
    ([(1, [1, 2, 0])],
     [((0, 1, 0), [(4, 2)]), ((0, 2, 0), [(3, 1)]), ((1, 0, 0), [(2, 1)]), ((1, 1, 0), [(1, 2)]), ((1, 2, 0), [(0, 1)])]),
    ([(1, [2, 0, 0])],
     [((1, 0, 0), [(3, 2)]), ((2, 0, 0), [(0, 1)])]),
    ([(1, [2, 1, 0])],
     [((0, 1, 0), [(6, 1)]), ((1, 0, 0), [(4, 2)]), ((1, 1, 0), [(3, 2)]), ((2, 0, 0), [(1, 1)]), ((2, 1, 0), [(0, 1)])]),
    ([(1, [2, 2, 0])],
     [((0, 1, 0), [(7, 2)]), ((0, 2, 0), [(6, 1)]), ((1, 0, 0), [(5, 2)]), ((1, 1, 0), [(4, 4)]), ((1, 2, 0), [(3, 2)]), ((2, 0, 0), [(2, 1)]), ((2, 1, 0), [(1, 2)]), ((2, 2, 0), [(0, 1)])])])

def cascaded_D2Q9 : ℤ × List (MPoly ℤ × List ((ℕ × ℕ × ℕ) × List (ℕ × ℤ))) :=
  (2,
   [([(1, [0, 0, 0])],
     []),
    ([(1, [1, 0, 0])],
     [((1, 0, 0), [(0, 2)])]),
    ([(1, [0, 1, 0])],
     [((0, 1, 0), [(0, 2)])]),
    ([(1, [1, 1, 0])],
     [((0, 1, 0), [(1, 2)]), ((1, 0, 0), [(2, 2)]), ((1, 1, 0), [(0, 2)])]),
    ([(1, [2, 0, 0]), (-1, [0, 2, 0])],
     [((0, 1, 0), [(2, -4)]), ((0, 2, 0), [(0, -2)]), ((1, 0, 0), [(1, 4)]), ((2, 0, 0), [(0, 2)])]),
    ([(1, [2, 0, 0]), (1, [0, 2, 0])],
     [((0, 1, 0), [(2, 4)]), ((0, 2, 0), [(0, 2)]), ((1, 0, 0), [(1, 4)]), ((2, 0, 0), [(0, 2)])]),
    ([(1, [2, 1, 0])],
     [((0, 1, 0), [(4, 1), (5, 1)]), ((1, 0, 0), [(3, 4)]), ((1, 1, 0), [(1, 4)]), ((2, 0, 0), [(2, 2)]), ((2, 1, 0), [(0, 2)])]),
    ([(1, [1, 2, 0])],
     [((0, 1, 0), [(3, 4)]), ((0, 2, 0), [(1, 2)]), ((1, 0, 0), [(4, -1), (5, 1)]), ((1, 1, 0), [(2, 4)]), ((1, 2, 0), [(0, 2)])]),
    ([(1, [2, 2, 0])],
     [((0, 1, 0), [(6, 4)]), ((0, 2, 0), [(4, 1), (5, 1)]), ((1, 0, 0), [(7, 4)]), ((1, 1, 0), [(3, 8)]), ((1, 2, 0), [(1, 4)]), ((2, 0, 0), [(4, -1), (5, 1)]), ((2, 1, 0), [(2, 4)]), ((2, 2, 0), [(0, 2)])])])

def default_D3Q7 : ℤ × List (MPoly ℤ × List ((ℕ × ℕ × ℕ) × List (ℕ × ℤ))) :=
  (1,
   [([(1, [0, 0, 0])],
     []),
    ([(1, [0, 0, 1])],
     [((0, 0, 1), [(0, 1)])]),
    ([(1, [0, 1, 0])],
     [((0, 1, 0), [(0, 1)])]),
    ([(1, [1, 0, 0])],
     [((1, 0, 0), [(0, 1)])]),
    ([(1, [2, 0, 0]), (-1, [0, 2, 0])],
     [((0, 1, 0), [(2, -2)]), ((0, 2, 0), [(0, -1)]), ((1, 0, 0), [(3, 2)]), ((2, 0, 0), [(0, 1)])]),
    ([(1, [2, 0, 0]), (-1, [0, 0, 2])],
     [((0, 0, 1), [(1, -2)]), ((0, 0, 2), [(0, -1)]), ((1, 0, 0), [(3, 2)]), ((2, 0, 0), [(0, 1)])]),
    ([(1, [2, 0, 0]), (1, [0, 2, 0]), (1, [0, 0, 2])],
     [((0, 0, 1), [(1, 2)]), ((0, 0, 2), [(0, 1)]), ((0, 1, 0), [(2, 2)]), ((0, 2, 0), [(0, 1)]), ((1, 0, 0), [(3, 2)]), ((2, 0, 0), [(0, 1)])])])

def cascaded_D3Q7 : ℤ × List (MPoly ℤ × List ((ℕ × ℕ × ℕ) × List (ℕ × ℤ))) :=
  (1,
   [([(1, [0, 0, 0])],
     []),
    ([(1, [1, 0, 0])],
     [((1, 0, 0), [(0, 1)])]),
    ([(1, [0, 1, 0])],
     [((0, 1, 0), [(0, 1)])]),
    ([(1, [0, 0, 1])],
     [((0, 0, 1), [(0, 1)])]),
    ([(1, [2, 0, 0]), (-1, [0, 2, 0])],
     [((0, 1, 0), [(2, -2)]), ((0, 2, 0), [(0, -1)]), ((1, 0, 0), [(1, 2)]), ((2, 0, 0), [(0, 1)])]),
    ([(1, [2, 0, 0]), (-1, [0, 0, 2])],
     [((0, 0, 1), [(3, -2)]), ((0, 0, 2), [(0, -1)]), ((1, 0, 0), [(1, 2)]), ((2, 0, 0), [(0, 1)])]),
    ([(1, [2, 0, 0]), (1, [0, 2, 0]), (1, [0, 0, 2])],
     [((0, 0, 1), [(3, 2)]), ((0, 0, 2), [(0, 1)]), ((0, 1, 0), [(2, 2)]), ((0, 2, 0), [(0, 1)]), ((1, 0, 0), [(1, 2)]), ((2, 0, 0), [(0, 1)])])])

def default_D3Q15 : ℤ × List (MPoly ℤ × List ((ℕ × ℕ × ℕ) × List (ℕ × ℤ))) :=
  (1,
   [([(1, [0, 0, 0])],
     []),
    ([(1, [0, 0, 1])],
     [((0, 0, 1), [(0, 1)])]),
    ([(1, [0, 0, 2])],
     [((0, 0, 1), [(1, 2)]), ((0, 0, 2), [(0, 1)])]),
    ([(1, [0, 1, 0])],
     [((0, 1, 0), [(0, 1)])]),
    ([(1, [0, 1, 1])],
     [((0, 0, 1), [(3, 1)]), ((0, 1, 0), [(1, 1)]), ((0, 1, 1), [(0, 1)])]),
    ([(1, [0, 2, 0])],
     [((0, 1, 0), [(3, 2)]), ((0, 2, 0), [(0, 1)])]),
    ([(1, [1, 0, 0])],
     [((1, 0, 0), [(0, 1)])]),
    ([(1, [1, 0, 1])],
     [((0, 0, 1), [(6, 1)]), ((1, 0, 0), [(1, 1)]), ((1, 0, 1), [(0, 1)])]),
    ([(1, [1, 1, 0])],
     [((0, 1, 0), [(6, 1)]), ((1, 0, 0), [(3, 1)]), ((1, 1, 0), [(0, 1)])]),
    ([(1, [1, 1, 1])],
     [((0, 0, 1), [(8, 1)]), ((0, 1, 0), [(7, 1)]), ((0, 1, 1), [(6, 1)]), ((1, 0, 0), [(4, 1)]), ((1, 0, 1), [(3, 1)]), ((1, 1, 0), [(1, 1)]), ((1, 1, 1), [(0, 1)])]),
    ([(1, [2, 0, 0])],
     [((1, 0, 0), [(6, 2)]), ((2, 0, 0), [(0, 1)])]),
    ([(6, [2, 2, 0]), (6, [2, 0, 2]), (6, [0, 2, 2])],
     [((0, 0, 1), [(14, 4)]), ((0, 0, 2), [(5, 6), (10, 6)]), ((0, 1, 0), [(13, 4)]), ((0, 1, 1), [(4, 24)]), ((0, 1, 2), [(3, 12)]), ((0, 2, 0), [(2, 6), (10, 6)]), ((0, 2, 1), [(1, 12)]), ((0, 2, 2), [(0, 6)]), ((1, 0, 0), [(12, 4)]), ((1, 0, 1), [(7, 24)]), ((1, 0, 2), [(6, 12)]), ((1, 1, 0), [(8, 24)]), ((1, 2, 0), [(6, 12)]), ((2, 0, 0), [(2, 6), (5, 6)]), ((2, 0, 1), [(1, 12)]), ((2, 0, 2), [(0, 6)]), ((2, 1, 0), [(3, 12)]), ((2, 2, 0), [(0, 6)])]),
    ([(3, [1, 2, 0]), (3, [1, 0, 2])],
     [((0, 0, 1), [(7, 6)]), ((0, 0, 2), [(6, 3)]), ((0, 1, 0), [(8, 6)]), ((0, 2, 0), [(6, 3)]), ((1, 0, 0), [(2, 3), (5, 3)]), ((1, 0, 1), [(1, 6)]), ((1, 0, 2), [(0, 3)]), ((1, 1, 0), [(3, 6)]), ((1, 2, 0), [(0, 3)])]),
    ([(3, [2, 1, 0]), (3, [0, 1, 2])],
     [((0, 0, 1), [(4, 6)]), ((0, 0, 2), [(3, 3)]), ((0, 1, 0), [(2, 3), (10, 3)]), ((0, 1, 1), [(1, 6)]), ((0, 1, 2), [(0, 3)]), ((1, 0, 0), [(8, 6)]), ((1, 1, 0), [(6, 6)]), ((2, 0, 0), [(3, 3)]), ((2, 1, 0), [(0, 3)])]),
    ([(3, [2, 0, 1]), (3, [0, 2, 1])],
     [((0, 0, 1), [(5, 3), (10, 3)]), ((0, 1, 0), [(4, 6)]), ((0, 1, 1), [(3, 6)]), ((0, 2, 0), [(1, 3)]), ((0, 2, 1), [(0, 3)]), ((1, 0, 0), [(7, 6)]), ((1, 0, 1), [(6, 6)]), ((2, 0, 0), [(1, 3)]), ((2, 0, 1), [(0, 3)])])])

def cascaded_D3Q15 : ℤ × List (MPoly ℤ × List ((ℕ × ℕ × ℕ) × List (ℕ × ℤ))) :=
  (3,
   [([(1, [0, 0, 0])],
     []),
    ([(1, [1, 0, 0])],
     [((1, 0, 0), [(0, 3)])]),
    ([(1, [0, 1, 0])],
     [((0, 1, 0), [(0, 3)])]),
    ([(1, [0, 0, 1])],
     [((0, 0, 1), [(0, 3)])]),
    ([(1, [1, 1, 0])],
     [((0, 1, 0), [(1, 3)]), ((1, 0, 0), [(2, 3)]), ((1, 1, 0), [(0, 3)])]),
    ([(1, [1, 0, 1])],
     [((0, 0, 1), [(1, 3)]), ((1, 0, 0), [(3, 3)]), ((1, 0, 1), [(0, 3)])]),
    ([(1, [0, 1, 1])],
     [((0, 0, 1), [(2, 3)]), ((0, 1, 0), [(3, 3)]), ((0, 1, 1), [(0, 3)])]),
    ([(1, [2, 0, 0]), (-1, [0, 2, 0])],
     [((0, 1, 0), [(2, -6)]), ((0, 2, 0), [(0, -3)]), ((1, 0, 0), [(1, 6)]), ((2, 0, 0), [(0, 3)])]),
    ([(1, [2, 0, 0]), (-1, [0, 0, 2])],
     [((0, 0, 1), [(3, -6)]), ((0, 0, 2), [(0, -3)]), ((1, 0, 0), [(1, 6)]), ((2, 0, 0), [(0, 3)])]),
    ([(1, [2, 0, 0]), (1, [0, 2, 0]), (1, [0, 0, 2])],
     [((0, 0, 1), [(3, 6)]), ((0, 0, 2), [(0, 3)]), ((0, 1, 0), [(2, 6)]), ((0, 2, 0), [(0, 3)]), ((1, 0, 0), [(1, 6)]), ((2, 0, 0), [(0, 3)])]),
    ([(1, [3, 0, 0]), (1, [1, 2, 0]), (1, [1, 0, 2])],
     [((0, 0, 1), [(5, 6)]), ((0, 0, 2), [(1, 3)]), ((0, 1, 0), [(4, 6)]), ((0, 2, 0), [(1, 3)]), ((1, 0, 0), [(7, 2), (8, 2), (9, 5)]), ((1, 0, 1), [(3, 6)]), ((1, 0, 2), [(0, 3)]), ((1, 1, 0), [(2, 6)]), ((1, 2, 0), [(0, 3)]), ((2, 0, 0), [(1, 9)]), ((3, 0, 0), [(0, 3)])]),
    ([(1, [2, 1, 0]), (1, [0, 3, 0]), (1, [0, 1, 2])],
     [((0, 0, 1), [(6, 6)]), ((0, 0, 2), [(2, 3)]), ((0, 1, 0), [(7, -4), (8, 2), (9, 5)]), ((0, 1, 1), [(3, 6)]), ((0, 1, 2), [(0, 3)]), ((0, 2, 0), [(2, 9)]), ((0, 3, 0), [(0, 3)]), ((1, 0, 0), [(4, 6)]), ((1, 1, 0), [(1, 6)]), ((2, 0, 0), [(2, 3)]), ((2, 1, 0), [(0, 3)])]),
    ([(1, [2, 0, 1]), (1, [0, 2, 1]), (1, [0, 0, 3])],
     [((0, 0, 1), [(7, 2), (8, -4), (9, 5)]), ((0, 0, 2), [(3, 9)]), ((0, 0, 3), [(0, 3)]), ((0, 1, 0), [(6, 6)]), ((0, 1, 1), [(2, 6)]), ((0, 2, 0), [(3, 3)]), ((0, 2, 1), [(0, 3)]), ((1, 0, 0), [(5, 6)]), ((1, 0, 1), [(1, 6)]), ((2, 0, 0), [(3, 3)]), ((2, 0, 1), [(0, 3)])]),
    ([(1, [1, 1, 1])],
     [((0, 0, 1), [(4, 3)]), ((0, 1, 0), [(5, 3)]), ((0, 1, 1), [(1, 3)]), ((1, 0, 0), [(6, 3)]), ((1, 0, 1), [(2, 3)]), ((1, 1, 0), [(3, 3)]), ((1, 1, 1), [(0, 3)])]),
    ([(1, [2, 2, 0]), (1, [2, 0, 2]), (1, [0, 2, 2])],
     [((0, 0, 1), [(3, -6), (12, 6)]), ((0, 0, 2), [(7, -1), (8, 2), (9, 2)]), ((0, 1, 0), [(2, -6), (11, 6)]), ((0, 1, 1), [(6, 12)]), ((0, 1, 2), [(2, 6)]), ((0, 2, 0), [(7, 2), (8, -1), (9, 2)]), ((0, 2, 1), [(3, 6)]), ((0, 2, 2), [(0, 3)]), ((1, 0, 0), [(1, -6), (10, 6)]), ((1, 0, 1), [(5, 12)]), ((1, 0, 2), [(1, 6)]), ((1, 1, 0), [(4, 12)]), ((1, 2, 0), [(1, 6)]), ((2, 0, 0), [(7, -1), (8, -1), (9, 2)]), ((2, 0, 1), [(3, 6)]), ((2, 0, 2), [(0, 3)]), ((2, 1, 0), [(2, 6)]), ((2, 2, 0), [(0, 3)])])])

def default_D3Q19 : ℤ × List (MPoly ℤ × List ((ℕ × ℕ × ℕ) × List (ℕ × ℤ))) :=
  (1,
   [([(1, [0, 0, 0])],
     []),
    ([(1, [0, 0, 1])],
     [((0, 0, 1), [(0, 1)])]),
    ([(1, [0, 0, 2])],
     [((0, 0, 1), [(1, 2)]), ((0, 0, 2), [(0, 1)])]),
    ([(1, [0, 1, 0])],
     [((0, 1, 0), [(0, 1)])]),
    ([(1, [0, 1, 1])],
     [((0, 0, 1), [(3, 1)]), ((0, 1, 0), [(1, 1)]), ((0, 1, 1), [(0, 1)])]),
    ([(1, [0, 1, 2])],
     [((0, 0, 1), [(4, 2)]), ((0, 0, 2), [(3, 1)]), ((0, 1, 0), [(2, 1)]), ((0, 1, 1), [(1, 2)]), ((0, 1, 2), [(0, 1)])]),
    ([(1, [0, 2, 0])],
     [((0, 1, 0), [(3, 2)]), ((0, 2, 0), [(0, 1)])]),
    ([(1, [0, 2, 1])],
     [((0, 0, 1), [(6, 1)]), ((0, 1, 0), [(4, 2)]), ((0, 1, 1), [(3, 2)]), ((0, 2, 0), [(1, 1)]), ((0, 2, 1), [(0, 1)])]),
    ([(1, [0, 2, 2])],
     [((0, 0, 1), [(7, 2)]), ((0, 0, 2), [(6, 1)]), ((0, 1, 0), [(5, 2)]), ((0, 1, 1), [(4, 4)]), ((0, 1, 2), [(3, 2)]), ((0, 2, 0), [(2, 1)]), ((0, 2, 1), [(1, 2)]), ((0, 2, 2), [(0, 1)])]),
    ([(1, [1, 0, 0])],
     [((1, 0, 0), [(0, 1)])]),
    ([(1, [1, 0, 1])],
     [((0, 0, 1), [(9, 1)]), ((1, 0, 0), [(1, 1)]), ((1, 0, 1), [(0, 1)])]),
    ([(1, [1, 0, 2])],
     [((0, 0, 1), [(10, 2)]), ((0, 0, 2), [(9, 1)]), ((1, 0, 0), [(2, 1)]), ((1, 0, 1), [(1, 2)]), ((1, 0, 2), [(0, 1)])]),
    ([(1, [1, 1, 0])],
     [((0, 1, 0), [(9, 1)]), ((1, 0, 0), [(3, 1)]), ((1, 1, 0), [(0, 1)])]),
    ([(1, [1, 2, 0])],
     [((0, 1, 0), [(12, 2)]), ((0, 2, 0), [(9, 1)]), ((1, 0, 0), [(6, 1)]), ((1, 1, 0), [(3, 2)]), ((1, 2, 0), [(0, 1)])]),
    ([(1, [2, 0, 0])],
     [((1, 0, 0), [(9, 2)]), ((2, 0, 0), [(0, 1)])]),
    ([(1, [2, 0, 1])],
     [((0, 0, 1), [(14, 1)]), ((1, 0, 0), [(10, 2)]), ((1, 0, 1), [(9, 2)]), ((2, 0, 0), [(1, 1)]), ((2, 0, 1), [(0, 1)])]),
    ([(1, [2, 0, 2])],
     [((0, 0, 1), [(15, 2)]), ((0, 0, 2), [(14, 1)]), ((1, 0, 0), [(11, 2)]), ((1, 0, 1), [(10, 4)]), ((1, 0, 2), [(9, 2)]), ((2, 0, 0), [(2, 1)]), ((2, 0, 1), [(1, 2)]), ((2, 0, 2), [(0, 1)])]),
    ([(1, [2, 1, 0])],
     [((0, 1, 0), [(14, 1)]), ((1, 0, 0), [(12, 2)]), ((1, 1, 0), [(9, 2)]), ((2, 0, 0), [(3, 1)]), ((2, 1, 0), [(0, 1)])]),
    ([(1, [2, 2, 0])],
     [((0, 1, 0), [(17, 2)]), ((0, 2, 0), [(14, 1)]), ((1, 0, 0), [(13, 2)]), ((1, 1, 0), [(12, 4)]), ((1, 2, 0), [(9, 2)]), ((2, 0, 0), [(6, 1)]), ((2, 1, 0), [(3, 2)]), ((2, 2, 0), [(0, 1)])])])

def cascaded_D3Q19 : ℤ × List (MPoly ℤ × List ((ℕ × ℕ × ℕ) × List (ℕ × ℤ))) :=
  (3,
   [([(1, [0, 0, 0])],
     []),
    ([(1, [1, 0, 0])],
     [((1, 0, 0), [(0, 3)])]),
    ([(1, [0, 1, 0])],
     [((0, 1, 0), [(0, 3)])]),
    ([(1, [0, 0, 1])],
     [((0, 0, 1), [(0, 3)])]),
    ([(1, [1, 1, 0])],
     [((0, 1, 0), [(1, 3)]), ((1, 0, 0), [(2, 3)]), ((1, 1, 0), [(0, 3)])]),
    ([(1, [1, 0, 1])],
     [((0, 0, 1), [(1, 3)]), ((1, 0, 0), [(3, 3)]), ((1, 0, 1), [(0, 3)])]),
    ([(1, [0, 1, 1])],
     [((0, 0, 1), [(2, 3)]), ((0, 1, 0), [(3, 3)]), ((0, 1, 1), [(0, 3)])]),
    ([(1, [2, 0, 0]), (-1, [0, 2, 0])],
     [((0, 1, 0), [(2, -6)]), ((0, 2, 0), [(0, -3)]), ((1, 0, 0), [(1, 6)]), ((2, 0, 0), [(0, 3)])]),
    ([(1, [2, 0, 0]), (-1, [0, 0, 2])],
     [((0, 0, 1), [(3, -6)]), ((0, 0, 2), [(0, -3)]), ((1, 0, 0), [(1, 6)]), ((2, 0, 0), [(0, 3)])]),
    ([(1, [2, 0, 0]), (1, [0, 2, 0]), (1, [0, 0, 2])],
     [((0, 0, 1), [(3, 6)]), ((0, 0, 2), [(0, 3)]), ((0, 1, 0), [(2, 6)]), ((0, 2, 0), [(0, 3)]), ((1, 0, 0), [(1, 6)]), ((2, 0, 0), [(0, 3)])]),
    ([(1, [1, 2, 0]), (1, [1, 0, 2])],
     [((0, 0, 1), [(5, 6)]), ((0, 0, 2), [(1, 3)]), ((0, 1, 0), [(4, 6)]), ((0, 2, 0), [(1, 3)]), ((1, 0, 0), [(7, -1), (8, -1), (9, 2)]), ((1, 0, 1), [(3, 6)]), ((1, 0, 2), [(0, 3)]), ((1, 1, 0), [(2, 6)]), ((1, 2, 0), [(0, 3)])]),
    ([(1, [2, 1, 0]), (1, [0, 1, 2])],
     [((0, 0, 1), [(6, 6)]), ((0, 0, 2), [(2, 3)]), ((0, 1, 0), [(7, 2), (8, -1), (9, 2)]), ((0, 1, 1), [(3, 6)]), ((0, 1, 2), [(0, 3)]), ((1, 0, 0), [(4, 6)]), ((1, 1, 0), [(1, 6)]), ((2, 0, 0), [(2, 3)]), ((2, 1, 0), [(0, 3)])]),
    ([(1, [2, 0, 1]), (1, [0, 2, 1])],
     [((0, 0, 1), [(7, -1), (8, 2), (9, 2)]), ((0, 1, 0), [(6, 6)]), ((0, 1, 1), [(2, 6)]), ((0, 2, 0), [(3, 3)]), ((0, 2, 1), [(0, 3)]), ((1, 0, 0), [(5, 6)]), ((1, 0, 1), [(1, 6)]), ((2, 0, 0), [(3, 3)]), ((2, 0, 1), [(0, 3)])]),
    ([(1, [1, 2, 0]), (-1, [1, 0, 2])],
     [((0, 0, 1), [(5, -6)]), ((0, 0, 2), [(1, -3)]), ((0, 1, 0), [(4, 6)]), ((0, 2, 0), [(1, 3)]), ((1, 0, 0), [(7, -3), (8, 3)]), ((1, 0, 1), [(3, -6)]), ((1, 0, 2), [(0, -3)]), ((1, 1, 0), [(2, 6)]), ((1, 2, 0), [(0, 3)])]),
    ([(1, [2, 1, 0]), (-1, [0, 1, 2])],
     [((0, 0, 1), [(6, -6)]), ((0, 0, 2), [(2, -3)]), ((0, 1, 0), [(8, 3)]), ((0, 1, 1), [(3, -6)]), ((0, 1, 2), [(0, -3)]), ((1, 0, 0), [(4, 6)]), ((1, 1, 0), [(1, 6)]), ((2, 0, 0), [(2, 3)]), ((2, 1, 0), [(0, 3)])]),
    ([(1, [2, 0, 1]), (-1, [0, 2, 1])],
     [((0, 0, 1), [(7, 3)]), ((0, 1, 0), [(6, -6)]), ((0, 1, 1), [(2, -6)]), ((0, 2, 0), [(3, -3)]), ((0, 2, 1), [(0, -3)]), ((1, 0, 0), [(5, 6)]), ((1, 0, 1), [(1, 6)]), ((2, 0, 0), [(3, 3)]), ((2, 0, 1), [(0, 3)])]),
    ([(1, [2, 2, 0]), (-2, [2, 0, 2]), (1, [0, 2, 2])],
     [((0, 0, 1), [(12, -3), (15, -9)]), ((0, 0, 2), [(7, -4), (8, -1), (9, -1)]), ((0, 1, 0), [(11, 6)]), ((0, 1, 1), [(6, 12)]), ((0, 1, 2), [(2, 6)]), ((0, 2, 0), [(7, 2), (8, -1), (9, 2)]), ((0, 2, 1), [(3, 6)]), ((0, 2, 2), [(0, 3)]), ((1, 0, 0), [(10, -3), (13, 9)]), ((1, 0, 1), [(5, -24)]), ((1, 0, 2), [(1, -12)]), ((1, 1, 0), [(4, 12)]), ((1, 2, 0), [(1, 6)]), ((2, 0, 0), [(7, -4), (8, 5), (9, -1)]), ((2, 0, 1), [(3, -12)]), ((2, 0, 2), [(0, -6)]), ((2, 1, 0), [(2, 6)]), ((2, 2, 0), [(0, 3)])]),
    ([(1, [2, 2, 0]), (1, [2, 0, 2]), (-2, [0, 2, 2])],
     [((0, 0, 1), [(12, -3), (15, 9)]), ((0, 0, 2), [(7, 5), (8, -1), (9, -1)]), ((0, 1, 0), [(11, -3), (14, 9)]), ((0, 1, 1), [(6, -24)]), ((0, 1, 2), [(2, -12)]), ((0, 2, 0), [(7, -1), (8, 5), (9, -1)]), ((0, 2, 1), [(3, -12)]), ((0, 2, 2), [(0, -6)]), ((1, 0, 0), [(10, 6)]), ((1, 0, 1), [(5, 12)]), ((1, 0, 2), [(1, 6)]), ((1, 1, 0), [(4, 12)]), ((1, 2, 0), [(1, 6)]), ((2, 0, 0), [(7, -1), (8, -1), (9, 2)]), ((2, 0, 1), [(3, 6)]), ((2, 0, 2), [(0, 3)]), ((2, 1, 0), [(2, 6)]), ((2, 2, 0), [(0, 3)])]),
    ([(1, [2, 2, 0]), (1, [2, 0, 2]), (1, [0, 2, 2])],
     [((0, 0, 1), [(12, 6)]), ((0, 0, 2), [(7, -1), (8, 2), (9, 2)]), ((0, 1, 0), [(11, 6)]), ((0, 1, 1), [(6, 12)]), ((0, 1, 2), [(2, 6)]), ((0, 2, 0), [(7, 2), (8, -1), (9, 2)]), ((0, 2, 1), [(3, 6)]), ((0, 2, 2), [(0, 3)]), ((1, 0, 0), [(10, 6)]), ((1, 0, 1), [(5, 12)]), ((1, 0, 2), [(1, 6)]), ((1, 1, 0), [(4, 12)]), ((1, 2, 0), [(1, 6)]), ((2, 0, 0), [(7, -1), (8, -1), (9, 2)]), ((2, 0, 1), [(3, 6)]), ((2, 0, 2), [(0, 3)]), ((2, 1, 0), [(2, 6)]), ((2, 2, 0), [(0, 3)])])])

def default_D3Q27 : ℤ × List (MPoly ℤ × List ((ℕ × ℕ × ℕ) × List (ℕ × ℤ))) :=
  (1,
   [([(1, [0, 0, 0])],
     []),
    ([(1, [0, 0, 1])],
     [((0, 0, 1), [(0, 1)])]),
    ([(1, [0, 0, 2])],
     [((0, 0, 1), [(1, 2)]), ((0, 0, 2), [(0, 1)])]),
    ([(1, [0, 1, 0])],
     [((0, 1, 0), [(0, 1)])]),
    ([(1, [0, 1, 1])],
     [((0, 0, 1), [(3, 1)]), ((0, 1, 0), [(1, 1)]), ((0, 1, 1), [(0, 1)])]),
    ([(1, [0, 1, 2])],
     [((0, 0, 1), [(4, 2)]), ((0, 0, 2), [(3, 1)]), ((0, 1, 0), [(2, 1)]), ((0, 1, 1), [(1, 2)]), ((0, 1, 2), [(0, 1)])]),
    ([(1, [0, 2, 0])],
     [((0, 1, 0), [(3, 2)]), ((0, 2, 0), [(0, 1)])]),
    ([(1, [0, 2, 1])],
     [((0, 0, 1), [(6, 1)]), ((0, 1, 0), [(4, 2)]), ((0, 1, 1), [(3, 2)]), ((0, 2, 0), [(1, 1)]), ((0, 2, 1), [(0, 1)])]),
    ([(1, [0, 2, 2])],
     [((0, 0, 1), [(7, 2)]), ((0, 0, 2), [(6, 1)]), ((0, 1, 0), [(5, 2)]), ((0, 1, 1), [(4, 4)]), ((0, 1, 2), [(3, 2)]), ((0, 2, 0), [(2, 1)]), ((0, 2, 1), [(1, 2)]), ((0, 2, 2), [(0, 1)])]),
    ([(1, [1, 0, 0])],
     [((1, 0, 0), [(0, 1)])]),
    ([(1, [1, 0, 1])],
     [((0, 0, 1), [(9, 1)]), ((1, 0, 0), [(1, 1)]), ((1, 0, 1), [(0, 1)])]),
    ([(1, [1, 0, 2])],
     [((0, 0, 1), [(10, 2)]), ((0, 0, 2), [(9, 1)]), ((1, 0, 0), [(2, 1)]), ((1, 0, 1), [(1, 2)]), ((1, 0, 2), [(0, 1)])]),
    ([(1, [1, 1, 0])],
     [((0, 1, 0), [(9, 1)]), ((1, 0, 0), [(3, 1)]), ((1, 1, 0), [(0, 1)])]),
    ([(1, [1, 1, 1])],
     [((0, 0, 1), [(12, 1)]), ((0, 1, 0), [(10, 1)]), ((0, 1, 1), [(9, 1)]), ((1, 0, 0), [(4, 1)]), ((1, 0, 1), [(3, 1)]), ((1, 1, 0), [(1, 1)]), ((1, 1, 1), [(0, 1)])]),
    ([(1, [1, 1, 2])],
     [((0, 0, 1), [(13, 2)]), ((0, 0, 2), [(12, 1)]), ((0, 1, 0), [(11, 1)]), ((0, 1, 1), [(10, 2)]), ((0, 1, 2), [(9, 1)]), ((1, 0, 0), [(5, 1)]), ((1, 0, 1), [(4, 2)]), ((1, 0, 2), [(3, 1)]), ((1, 1, 0), [(2, 1)]), ((1, 1, 1), [(1, 2)]), ((1, 1, 2), [(0, 1)])]),
    ([(1, [1, 2, 0])],
     [((0, 1, 0), [(12, 2)]), ((0, 2, 0), [(9, 1)]), ((1, 0, 0), [(6, 1)]), ((1, 1, 0), [(3, 2)]), ((1, 2, 0), [(0, 1)])]),
    ([(1, [1, 2, 1])],
     [((0, 0, 1), [(15, 1)]), ((0, 1, 0), [(13, 2)]), ((0, 1, 1), [(12, 2)]), ((0, 2, 0), [(10, 1)]), ((0, 2, 1), [(9, 1)]), ((1, 0, 0), [(7, 1)]), ((1, 0, 1), [(6, 1)]), ((1, 1, 0), [(4, 2)]), ((1, 1, 1), [(3, 2)]), ((1, 2, 0), [(1, 1)]), ((1, 2, 1), [(0, 1)])]),
    ([(1, [1, 2, 2])],
     [((0, 0, 1), [(16, 2)]), ((0, 0, 2), [(15, 1)]), ((0, 1, 0), [(14, 2)]), ((0, 1, 1), [(13, 4)]), ((0, 1, 2), [(12, 2)]), ((0, 2, 0), [(11, 1)]), ((0, 2, 1), [(10, 2)]), ((0, 2, 2), [(9, 1)]), ((1, 0, 0), [(8, 1)]), ((1, 0, 1), [(7, 2)]), ((1, 0, 2), [(6, 1)]), ((1, 1, 0), [(5, 2)]), ((1, 1, 1), [(4, 4)]), ((1, 1, 2), [(3, 2)]), ((1, 2, 0), [(2, 1)]), ((1, 2, 1), [(1, 2)]), ((1, 2, 2), [(0, 1)])]),
    ([(1, [2, 0, 0])],
     [((1, 0, 0), [(9, 2)]), ((2, 0, 0), [(0, 1)])]),
    ([(1, [2, 0, 1])],
     [((0, 0, 1), [(18, 1)]), ((1, 0, 0), [(10, 2)]), ((1, 0, 1), [(9, 2)]), ((2, 0, 0), [(1, 1)]), ((2, 0, 1), [(0, 1)])]),
    ([(1, [2, 0, 2])],
     [((0, 0, 1), [(19, 2)]), ((0, 0, 2), [(18, 1)]), ((1, 0, 0), [(11, 2)]), ((1, 0, 1), [(10, 4)]), ((1, 0, 2), [(9, 2)]), ((2, 0, 0), [(2, 1)]), ((2, 0, 1), [(1, 2)]), ((2, 0, 2), [(0, 1)])]),
    ([(1, [2, 1, 0])],
     [((0, 1, 0), [(18, 1)]), ((1, 0, 0), [(12, 2)]), ((1, 1, 0), [(9, 2)]), ((2, 0, 0), [(3, 1)]), ((2, 1, 0), [(0, 1)])]),
    ([(1, [2, 1, 1])],
     [((0, 0, 1), [(21, 1)]), ((0, 1, 0), [(19, 1)]), ((0, 1, 1), [(18, 1)]), ((1, 0, 0), [(13, 2)]), ((1, 0, 1), [(12, 2)]), ((1, 1, 0), [(10, 2)]), ((1, 1, 1), [(9, 2)]), ((2, 0, 0), [(4, 1)]), ((2, 0, 1), [(3, 1)]), ((2, 1, 0), [(1, 1)]), ((2, 1, 1), [(0, 1)])]),
    ([(1, [2, 1, 2])],
     [((0, 0, 1), [(22, 2)]), ((0, 0, 2), [(21, 1)]), ((0, 1, 0), [(20, 1)]), ((0, 1, 1), [(19, 2)]), ((0, 1, 2), [(18, 1)]), ((1, 0, 0), [(14, 2)]), ((1, 0, 1), [(13, 4)]), ((1, 0, 2), [(12, 2)]), ((1, 1, 0), [(11, 2)]), ((1, 1, 1), [(10, 4)]), ((1, 1, 2), [(9, 2)]), ((2, 0, 0), [(5, 1)]), ((2, 0, 1), [(4, 2)]), ((2, 0, 2), [(3, 1)]), ((2, 1, 0), [(2, 1)]), ((2, 1, 1), [(1, 2)]), ((2, 1, 2), [(0, 1)])]),
    ([(1, [2, 2, 0])],
     [((0, 1, 0), [(21, 2)]), ((0, 2, 0), [(18, 1)]), ((1, 0, 0), [(15, 2)]), ((1, 1, 0), [(12, 4)]), ((1, 2, 0), [(9, 2)]), ((2, 0, 0), [(6, 1)]), ((2, 1, 0), [(3, 2)]), ((2, 2, 0), [(0, 1)])]),
    ([(1, [2, 2, 1])],
     [((0, 0, 1), [(24, 1)]), ((0, 1, 0), [(22, 2)]), ((0, 1, 1), [(21, 2)]), ((0, 2, 0), [(19, 1)]), ((0, 2, 1), [(18, 1)]), ((1, 0, 0), [(16, 2)]), ((1, 0, 1), [(15, 2)]), ((1, 1, 0), [(13, 4)]), ((1, 1, 1), [(12, 4)]), ((1, 2, 0), [(10, 2)]), ((1, 2, 1), [(9, 2)]), ((2, 0, 0), [(7, 1)]), ((2, 0, 1), [(6, 1)]), ((2, 1, 0), [(4, 2)]), ((2, 1, 1), [(3, 2)]), ((2, 2, 0), [(1, 1)]), ((2, 2, 1), [(0, 1)])]),
    ([(1, [2, 2, 2])],
     [((0, 0, 1), [(25, 2)]), ((0, 0, 2), [(24, 1)]), ((0, 1, 0), [(23, 2)]), ((0, 1, 1), [(22, 4)]), ((0, 1, 2), [(21, 2)]), ((0, 2, 0), [(20, 1)]), ((0, 2, 1), [(19, 2)]), ((0, 2, 2), [(18, 1)]), ((1, 0, 0), [(17, 2)]), ((1, 0, 1), [(16, 4)]), ((1, 0, 2), [(15, 2)]), ((1, 1, 0), [(14, 4)]), ((1, 1, 1), [(13, 8)]), ((1, 1, 2), [(12, 4)]), ((1, 2, 0), [(11, 2)]), ((1, 2, 1), [(10, 4)]), ((1, 2, 2), [(9, 2)]), ((2, 0, 0), [(8, 1)]), ((2, 0, 1), [(7, 2)]), ((2, 0, 2), [(6, 1)]), ((2, 1, 0), [(5, 2)]), ((2, 1, 1), [(4, 4)]), ((2, 1, 2), [(3, 2)]), ((2, 2, 0), [(2, 1)]), ((2, 2, 1), [(1, 2)]), ((2, 2, 2), [(0, 1)])])])

def cascaded_D3Q27 : ℤ × List (MPoly ℤ × List ((ℕ × ℕ × ℕ) × List (ℕ × ℤ))) :=
  (6,
   [([(1, [0, 0, 0])],
     []),
    ([(1, [1, 0, 0])],
     [((1, 0, 0), [(0, 6)])]),
    ([(1, [0, 1, 0])],
     [((0, 1, 0), [(0, 6)])]),
    ([(1, [0, 0, 1])],
     [((0, 0, 1), [(0, 6)])]),
    ([(1, [1, 1, 0])],
     [((0, 1, 0), [(1, 6)]), ((1, 0, 0), [(2, 6)]), ((1, 1, 0), [(0, 6)])]),
    ([(1, [1, 0, 1])],
     [((0, 0, 1), [(1, 6)]), ((1, 0, 0), [(3, 6)]), ((1, 0, 1), [(0, 6)])]),
    ([(1, [0, 1, 1])],
     [((0, 0, 1), [(2, 6)]), ((0, 1, 0), [(3, 6)]), ((0, 1, 1), [(0, 6)])]),
    ([(1, [2, 0, 0]), (-1, [0, 2, 0])],
     [((0, 1, 0), [(2, -12)]), ((0, 2, 0), [(0, -6)]), ((1, 0, 0), [(1, 12)]), ((2, 0, 0), [(0, 6)])]),
    ([(1, [2, 0, 0]), (-1, [0, 0, 2])],
     [((0, 0, 1), [(3, -12)]), ((0, 0, 2), [(0, -6)]), ((1, 0, 0), [(1, 12)]), ((2, 0, 0), [(0, 6)])]),
    ([(1, [2, 0, 0]), (1, [0, 2, 0]), (1, [0, 0, 2])],
     [((0, 0, 1), [(3, 12)]), ((0, 0, 2), [(0, 6)]), ((0, 1, 0), [(2, 12)]), ((0, 2, 0), [(0, 6)]), ((1, 0, 0), [(1, 12)]), ((2, 0, 0), [(0, 6)])]),
    ([(1, [1, 2, 0]), (1, [1, 0, 2])],
     [((0, 0, 1), [(5, 12)]), ((0, 0, 2), [(1, 6)]), ((0, 1, 0), [(4, 12)]), ((0, 2, 0), [(1, 6)]), ((1, 0, 0), [(7, -2), (8, -2), (9, 4)]), ((1, 0, 1), [(3, 12)]), ((1, 0, 2), [(0, 6)]), ((1, 1, 0), [(2, 12)]), ((1, 2, 0), [(0, 6)])]),
    ([(1, [2, 1, 0]), (1, [0, 1, 2])],
     [((0, 0, 1), [(6, 12)]), ((0, 0, 2), [(2, 6)]), ((0, 1, 0), [(7, 4), (8, -2), (9, 4)]), ((0, 1, 1), [(3, 12)]), ((0, 1, 2), [(0, 6)]), ((1, 0, 0), [(4, 12)]), ((1, 1, 0), [(1, 12)]), ((2, 0, 0), [(2, 6)]), ((2, 1, 0), [(0, 6)])]),
    ([(1, [2, 0, 1]), (1, [0, 2, 1])],
     [((0, 0, 1), [(7, -2), (8, 4), (9, 4)]), ((0, 1, 0), [(6, 12)]), ((0, 1, 1), [(2, 12)]), ((0, 2, 0), [(3, 6)]), ((0, 2, 1), [(0, 6)]), ((1, 0, 0), [(5, 12)]), ((1, 0, 1), [(1, 12)]), ((2, 0, 0), [(3, 6)]), ((2, 0, 1), [(0, 6)])]),
    ([(1, [1, 2, 0]), (-1, [1, 0, 2])],
     [((0, 0, 1), [(5, -12)]), ((0, 0, 2), [(1, -6)]), ((0, 1, 0), [(4, 12)]), ((0, 2, 0), [(1, 6)]), ((1, 0, 0), [(7, -6), (8, 6)]), ((1, 0, 1), [(3, -12)]), ((1, 0, 2), [(0, -6)]), ((1, 1, 0), [(2, 12)]), ((1, 2, 0), [(0, 6)])]),
    ([(1, [2, 1, 0]), (-1, [0, 1, 2])],
     [((0, 0, 1), [(6, -12)]), ((0, 0, 2), [(2, -6)]), ((0, 1, 0), [(8, 6)]), ((0, 1, 1), [(3, -12)]), ((0, 1, 2), [(0, -6)]), ((1, 0, 0), [(4, 12)]), ((1, 1, 0), [(1, 12)]), ((2, 0, 0), [(2, 6)]), ((2, 1, 0), [(0, 6)])]),
    ([(1, [2, 0, 1]), (-1, [0, 2, 1])],
     [((0, 0, 1), [(7, 6)]), ((0, 1, 0), [(6, -12)]), ((0, 1, 1), [(2, -12)]), ((0, 2, 0), [(3, -6)]), ((0, 2, 1), [(0, -6)]), ((1, 0, 0), [(5, 12)]), ((1, 0, 1), [(1, 12)]), ((2, 0, 0), [(3, 6)]), ((2, 0, 1), [(0, 6)])]),
    ([(1, [1, 1, 1])],
     [((0, 0, 1), [(4, 6)]), ((0, 1, 0), [(5, 6)]), ((0, 1, 1), [(1, 6)]), ((1, 0, 0), [(6, 6)]), ((1, 0, 1), [(2, 6)]), ((1, 1, 0), [(3, 6)]), ((1, 1, 1), [(0, 6)])]),
    ([(1, [2, 2, 0]), (-2, [2, 0, 2]), (1, [0, 2, 2])],
     [((0, 0, 1), [(12, -6), (15, -18)]), ((0, 0, 2), [(7, -8), (8, -2), (9, -2)]), ((0, 1, 0), [(11, 12)]), ((0, 1, 1), [(6, 24)]), ((0, 1, 2), [(2, 12)]), ((0, 2, 0), [(7, 4), (8, -2), (9, 4)]), ((0, 2, 1), [(3, 12)]), ((0, 2, 2), [(0, 6)]), ((1, 0, 0), [(10, -6), (13, 18)]), ((1, 0, 1), [(5, -48)]), ((1, 0, 2), [(1, -24)]), ((1, 1, 0), [(4, 24)]), ((1, 2, 0), [(1, 12)]), ((2, 0, 0), [(7, -8), (8, 10), (9, -2)]), ((2, 0, 1), [(3, -24)]), ((2, 0, 2), [(0, -12)]), ((2, 1, 0), [(2, 12)]), ((2, 2, 0), [(0, 6)])]),
    ([(1, [2, 2, 0]), (1, [2, 0, 2]), (-2, [0, 2, 2])],
     [((0, 0, 1), [(12, -6), (15, 18)]), ((0, 0, 2), [(7, 10), (8, -2), (9, -2)]), ((0, 1, 0), [(11, -6), (14, 18)]), ((0, 1, 1), [(6, -48)]), ((0, 1, 2), [(2, -24)]), ((0, 2, 0), [(7, -2), (8, 10), (9, -2)]), ((0, 2, 1), [(3, -24)]), ((0, 2, 2), [(0, -12)]), ((1, 0, 0), [(10, 12)]), ((1, 0, 1), [(5, 24)]), ((1, 0, 2), [(1, 12)]), ((1, 1, 0), [(4, 24)]), ((1, 2, 0), [(1, 12)]), ((2, 0, 0), [(7, -2), (8, -2), (9, 4)]), ((2, 0, 1), [(3, 12)]), ((2, 0, 2), [(0, 6)]), ((2, 1, 0), [(2, 12)]), ((2, 2, 0), [(0, 6)])]),
    ([(1, [2, 2, 0]), (1, [2, 0, 2]), (1, [0, 2, 2])],
     [((0, 0, 1), [(12, 12)]), ((0, 0, 2), [(7, -2), (8, 4), (9, 4)]), ((0, 1, 0), [(11, 12)]), ((0, 1, 1), [(6, 24)]), ((0, 1, 2), [(2, 12)]), ((0, 2, 0), [(7, 4), (8, -2), (9, 4)]), ((0, 2, 1), [(3, 12)]), ((0, 2, 2), [(0, 6)]), ((1, 0, 0), [(10, 12)]), ((1, 0, 1), [(5, 24)]), ((1, 0, 2), [(1, 12)]), ((1, 1, 0), [(4, 24)]), ((1, 2, 0), [(1, 12)]), ((2, 0, 0), [(7, -2), (8, -2), (9, 4)]), ((2, 0, 1), [(3, 12)]), ((2, 0, 2), [(0, 6)]), ((2, 1, 0), [(2, 12)]), ((2, 2, 0), [(0, 6)])]),
    ([(1, [2, 1, 1])],
     [((0, 0, 1), [(11, 3), (14, 3)]), ((0, 1, 0), [(12, 3), (15, 3)]), ((0, 1, 1), [(7, 2), (8, 2), (9, 2)]), ((1, 0, 0), [(16, 12)]), ((1, 0, 1), [(4, 12)]), ((1, 1, 0), [(5, 12)]), ((1, 1, 1), [(1, 12)]), ((2, 0, 0), [(6, 6)]), ((2, 0, 1), [(2, 6)]), ((2, 1, 0), [(3, 6)]), ((2, 1, 1), [(0, 6)])]),
    ([(1, [1, 2, 1])],
     [((0, 0, 1), [(10, 3), (13, 3)]), ((0, 1, 0), [(16, 12)]), ((0, 1, 1), [(4, 12)]), ((0, 2, 0), [(5, 6)]), ((0, 2, 1), [(1, 6)]), ((1, 0, 0), [(12, 3), (15, -3)]), ((1, 0, 1), [(7, -4), (8, 2), (9, 2)]), ((1, 1, 0), [(6, 12)]), ((1, 1, 1), [(2, 12)]), ((1, 2, 0), [(3, 6)]), ((1, 2, 1), [(0, 6)])]),
    ([(1, [1, 1, 2])],
     [((0, 0, 1), [(16, 12)]), ((0, 0, 2), [(4, 6)]), ((0, 1, 0), [(10, 3), (13, -3)]), ((0, 1, 1), [(5, 12)]), ((0, 1, 2), [(1, 6)]), ((1, 0, 0), [(11, 3), (14, -3)]), ((1, 0, 1), [(6, 12)]), ((1, 0, 2), [(2, 6)]), ((1, 1, 0), [(7, 2), (8, -4), (9, 2)]), ((1, 1, 1), [(3, 12)]), ((1, 1, 2), [(0, 6)])]),
    ([(1, [2, 2, 1])],
     [((0, 0, 1), [(17, 2), (18, 2), (19, 2)]), ((0, 1, 0), [(20, 12)]), ((0, 1, 1), [(11, 6), (14, 6)]), ((0, 2, 0), [(12, 3), (15, 3)]), ((0, 2, 1), [(7, 2), (8, 2), (9, 2)]), ((1, 0, 0), [(21, 12)]), ((1, 0, 1), [(10, 6), (13, 6)]), ((1, 1, 0), [(16, 24)]), ((1, 1, 1), [(4, 24)]), ((1, 2, 0), [(5, 12)]), ((1, 2, 1), [(1, 12)]), ((2, 0, 0), [(12, 3), (15, -3)]), ((2, 0, 1), [(7, -4), (8, 2), (9, 2)]), ((2, 1, 0), [(6, 12)]), ((2, 1, 1), [(2, 12)]), ((2, 2, 0), [(3, 6)]), ((2, 2, 1), [(0, 6)])]),
    ([(1, [2, 1, 2])],
     [((0, 0, 1), [(20, 12)]), ((0, 0, 2), [(11, 3), (14, 3)]), ((0, 1, 0), [(17, -2), (19, 2)]), ((0, 1, 1), [(12, 6), (15, 6)]), ((0, 1, 2), [(7, 2), (8, 2), (9, 2)]), ((1, 0, 0), [(22, 12)]), ((1, 0, 1), [(16, 24)]), ((1, 0, 2), [(4, 12)]), ((1, 1, 0), [(10, 6), (13, -6)]), ((1, 1, 1), [(5, 24)]), ((1, 1, 2), [(1, 12)]), ((2, 0, 0), [(11, 3), (14, -3)]), ((2, 0, 1), [(6, 12)]), ((2, 0, 2), [(2, 6)]), ((2, 1, 0), [(7, 2), (8, -4), (9, 2)]), ((2, 1, 1), [(3, 12)]), ((2, 1, 2), [(0, 6)])]),
    ([(1, [1, 2, 2])],
     [((0, 0, 1), [(21, 12)]), ((0, 0, 2), [(10, 3), (13, 3)]), ((0, 1, 0), [(22, 12)]), ((0, 1, 1), [(16, 24)]), ((0, 1, 2), [(4, 12)]), ((0, 2, 0), [(10, 3), (13, -3)]), ((0, 2, 1), [(5, 12)]), ((0, 2, 2), [(1, 6)]), ((1, 0, 0), [(18, -2), (19, 2)]), ((1, 0, 1), [(12, 6), (15, -6)]), ((1, 0, 2), [(7, -4), (8, 2), (9, 2)]), ((1, 1, 0), [(11, 6), (14, -6)]), ((1, 1, 1), [(6, 24)]), ((1, 1, 2), [(2, 12)]), ((1, 2, 0), [(7, 2), (8, -4), (9, 2)]), ((1, 2, 1), [(3, 12)]), ((1, 2, 2), [(0, 6)])]),
    ([(1, [2, 2, 2])],
     [((0, 0, 1), [(23, 12)]), ((0, 0, 2), [(17, 2), (18, 2), (19, 2)]), ((0, 1, 0), [(24, 12)]), ((0, 1, 1), [(20, 24)]), ((0, 1, 2), [(11, 6), (14, 6)]), ((0, 2, 0), [(17, -2), (19, 2)]), ((0, 2, 1), [(12, 6), (15, 6)]), ((0, 2, 2), [(7, 2), (8, 2), (9, 2)]), ((1, 0, 0), [(25, 12)]), ((1, 0, 1), [(21, 24)]), ((1, 0, 2), [(10, 6), (13, 6)]), ((1, 1, 0), [(22, 24)]), ((1, 1, 1), [(16, 48)]), ((1, 1, 2), [(4, 24)]), ((1, 2, 0), [(10, 6), (13, -6)]), ((1, 2, 1), [(5, 24)]), ((1, 2, 2), [(1, 12)]), ((2, 0, 0), [(18, -2), (19, 2)]), ((2, 0, 1), [(12, 6), (15, -6)]), ((2, 0, 2), [(7, -4), (8, 2), (9, 2)]), ((2, 1, 0), [(11, 6), (14, -6)]), ((2, 1, 1), [(6, 24)]), ((2, 1, 2), [(2, 12)]), ((2, 2, 0), [(7, 2), (8, -4), (9, 2)]), ((2, 2, 1), [(3, 12)]), ((2, 2, 2), [(0, 6)])])])

end Lbm.Expansions
