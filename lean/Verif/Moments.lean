/-
Model of the exponent-tuple part of `lbmpy/moments.py`. An exponent tuple is a `List ℕ`.
-/
import Verif.Stencil
import Mathlib.Data.List.Dedup
import Mathlib.Data.Nat.Factorial.Basic
import Mathlib.Algebra.BigOperators.Group.Finset.Basic
import Mathlib.Algebra.Ring.Defs
import Mathlib.Algebra.Ring.Int.Defs

namespace Lbm

/-! ### Permutations (`moments.py:55-83, 105-110, 761-794`)

The iteration order of a python `set` of integers is an implementation detail (it may even depend on the insertion
order); it is the parameter `ord`, of which only `SetOrder ord` is known. -/

/-- `ord l` lists the elements of `set(l)`, each once. -/
def SetOrder {α : Type} (ord : List α → List α) : Prop := ∀ l, (ord l).Nodup ∧ ∀ x, x ∈ ord l ↔ x ∈ l

/-- `__unique_permutations` (`moments.py:778-794`) of a sequence of length `n`. -/
def uniquePerms {α : Type} [DecidableEq α] (ord : List α → List α) : ℕ → List α → List (List α)
  | 0, _ => []
  | 1, l => [l]
  | n + 2, l => (ord l).flatMap fun x => (uniquePerms ord (n + 1) (l.erase x)).map fun p => x :: p

/-- `moment_permutations` (`moments.py:81-83`). -/
def momentPermutations (ord : List ℕ → List ℕ) (m : List ℕ) : List (List ℕ) := uniquePerms ord m.length m

/-- `moment_multiplicity` (`moments.py:55-69`): `len(m)!` floor-divided by the factorial of each count of
`Counter(m)`. -/
def momentMultiplicity (m : List ℕ) : ℕ :=
  (m.dedup.map fun x => m.count x).foldl (fun r d => r / d.factorial) m.length.factorial

/-- `__unique` (`moments.py:761-775`): keep the first occurrence of every item. -/
def uniqueList {α : Type} [DecidableEq α] : List α → List α → List α
  | _, [] => []
  | seen, x :: l => if x ∈ seen then uniqueList seen l else x :: uniqueList (x :: seen) l

/-- `extend_moments_with_permutations` (`moments.py:105-110`). -/
def extendWithPermutations (ord : List ℕ → List ℕ) (ms : List (List ℕ)) : List (List ℕ) :=
  uniqueList [] (ms.flatMap (momentPermutations ord))

/-- `pick_representative_moments` (`moments.py:72-78`), as a duplicate-free list standing for the set. -/
def pickRepresentatives (ord : List ℕ → List ℕ) (ms : List (List ℕ)) : List (List ℕ) :=
  let toRemove := ms.flatMap fun m => (momentPermutations ord m).tail
  ms.dedup.filter fun m => m ∉ toRemove

/-! ### Enumerations (`moments.py:86-118, 797-846`) -/

/-- descending order test, `current_list == sorted(current_list, reverse=True)` (`moments.py:843`) -/
def isDescending (l : List ℕ) : Bool := decide (l.Pairwise (· ≥ ·))

/-- `recursive_helper` (`moments.py:829-844`). `done` are the entries at positions `< position` (in order), `r` the
number of positions after the current one. -/
def fixedSumHelper (allowed : List ℕ) (ordered : Bool) : ℕ → List ℕ → ℕ → List (List ℕ)
  | 0, done, total =>
    if total ∈ allowed then
      let cur := done ++ [total]
      (if ordered = false then [cur] else []) ++ (if ordered && isDescending cur then [cur] else [])
    else []
  | r + 1, done, total =>
    allowed.flatMap fun i => if total < i then [] else fixedSumHelper allowed ordered r (done ++ [i]) (total - i)

/-- `__fixed_sum_tuples` (`moments.py:797-846`) without `allowed_values`, for a non-negative sum; `none` is the
`IndexError` for length 0 (`current_list[-1]`). -/
def fixedSumTuples (length sum : ℕ) (ordered : Bool) : Option (List (List ℕ)) :=
  match length with
  | 0 => none
  | r + 1 => some (fixedSumHelper (List.range (sum + 1)) ordered r [] sum)

/-- `moments_of_order` (`moments.py:86-91`); its assertions are proved never to fail (`C15_moments_of_order`). -/
def momentsOfOrder (order dim : ℕ) (includePermutations : Bool := true) : Option (List (List ℕ)) := do
  let items ← fixedSumTuples dim order (!includePermutations)
  if items.all fun i => i.length == dim && i.sum == order then some items else none

/-- `moments_up_to_order` (`moments.py:94-97`). -/
def momentsUpToOrder (order dim : ℕ) (includePermutations : Bool := true) : Option (List (List ℕ)) := do
  let parts ← (List.range (order + 1)).mapM fun o => momentsOfOrder o dim includePermutations
  some parts.flatten

/-- `itertools.product` of a list of sequences, leftmost slowest. -/
def pyProduct {α : Type} : List (List α) → List (List α)
  | [] => [[]]
  | l :: ls => l.flatMap fun x => (pyProduct ls).map fun t => x :: t

/-- `moments_up_to_component_order` (`moments.py:100-102`). -/
def momentsUpToComponentOrder (order dim : ℕ) : List (List ℕ) :=
  pyProduct (List.replicate dim (List.range (order + 1)))

/-- `contained_moments` (`moments.py:113-118`). -/
def containedMoments (m : List ℕ) (minOrder : ℕ := 0) (excludeOriginal : Bool := true) : List (List ℕ) :=
  (pyProduct (m.map fun i => List.range (i + 1))).filter fun t =>
    decide (minOrder ≤ t.sum) && (!excludeOriginal || decide (t ≠ m))

/-! ### Index representation (`moments.py:201-266`) -/

/-- `is_even` of an exponent tuple (`moments.py:216-217`). -/
def isEvenTuple (m : List ℕ) : Bool := m.sum % 2 == 0

/-- `get_moment_indices` (`moments.py:226-238`), starting with coordinate `i`. -/
def momentIndicesFrom : ℕ → List ℕ → List ℕ
  | _, [] => []
  | i, e :: m => List.replicate e i ++ momentIndicesFrom (i + 1) m

def momentIndices (m : List ℕ) : List ℕ := momentIndicesFrom 0 m

/-- `get_exponent_tuple_from_indices` (`moments.py:241-245`); `none` is the `IndexError`. -/
def exponentsFromIndices (dim : ℕ) (idx : List ℕ) : Option (List ℕ) :=
  idx.foldl (fun r i => r.bind fun r => if i < r.length then some (r.modify i (· + 1)) else none)
    (some (List.replicate dim 0))

/-! ### Aliasing and discrete moments (`moments.py:269-345, 381-440`) -/

/-- `non_aliased_moment` (`moments.py:269-289`). -/
def nonAliasedMoment (m : List ℕ) : List ℕ := m.map fun e => if e > 2 then 2 - e % 2 else e

variable {R : Type} [CommRing R]

/-- The entry of `moment_matrix` for an exponent tuple and a direction (`moments.py:427-431`): the product over
`zip(exponents, direction, shift)`. -/
def momentEntry : List ℕ → List ℤ → List R → R
  | e :: m, c :: d, s :: u => ((c : R) - s) ^ e * momentEntry m d u
  | _, _, _ => 1

/-- `discrete_moment` of an exponent tuple (`moments.py:381-414`): `factor` starts with the population and is
multiplied by the powers; `none` is the assertion on the number of populations. -/
def discreteMoment (func : List R) (m : List ℕ) (stencil : List (List ℤ)) (shift : Option (List R)) : Option R :=
  if stencil.length = func.length then
    let u := shift.getD (List.replicate (stencil.headD []).length 0)
    let factor : R → List ℤ → R := fun f e =>
      (List.zip e (List.zip u m)).foldl (fun acc p => acc * ((p.1 : R) - p.2.1) ^ p.2.2) f
    some ((List.zip func stencil).foldl (fun res p => res + factor p.1 p.2) 0)
  else none

/-- A row of `moment_matrix` without shift (`moments.py:417-440`). -/
def momentRow (stencil : List (List ℤ)) (m : List ℕ) : List ℤ :=
  stencil.map fun c => momentEntry m c (List.replicate (stencil.headD []).length (0 : ℤ))

/-- `aliases_from_moment_list` (`moments.py:292-310`): `rows` is `rows_dict`, the result the dictionary `aliases` as
an association list, latest entry first. -/
def aliasesLoop (stencil : List (List ℤ)) : List (List ℕ) → List (List ℤ × List ℕ) → List (List ℕ × List ℕ) →
    List (List ℕ × List ℕ)
  | [], _, al => al
  | m :: ms, rows, al =>
    match rows.lookup (momentRow stencil m) with
    | some m' => aliasesLoop stencil ms rows ((m, m') :: al)
    | none => aliasesLoop stencil ms ((momentRow stencil m, m) :: rows) al

def aliasesFromMomentList (ms : List (List ℕ)) (stencil : List (List ℤ)) : List (List ℕ × List ℕ) :=
  aliasesLoop stencil ms [] []

/-- `aliases.get(m, m)` (`moments.py:334`). -/
def aliasOf (al : List (List ℕ × List ℕ)) (m : List ℕ) : List ℕ := (al.lookup m).getD m

/-- A polynomial in exponent representation, as returned by `polynomial_to_exponent_representation`
(`moments.py:143-172`): coefficients and exponent tuples of distinct monomials. -/
abbrev MPoly (R : Type) := List (R × List ℕ)

/-- `nonalias_polynomial` (`moments.py:332-335`). -/
def nonaliasPolynomial (al : List (List ℕ × List ℕ)) (p : MPoly R) : MPoly R :=
  p.map fun t => (t.1, aliasOf al t.2)

/-- `non_aliased_polynomial_raw_moments` without nesting (`moments.py:313-345`). `monos` is the sorted list of the
monomials occurring in the polynomials; only its order depends on the sort key. -/
def nonAliasedPolynomials (polys : List (MPoly R)) (monos : List (List ℕ)) (stencil : List (List ℤ)) :
    List (MPoly R) :=
  let al := aliasesFromMomentList monos stencil
  if al = [] then polys else polys.map (nonaliasPolynomial al)

/-! ### Bulk and shear moments (`moments.py:348-378`) -/

variable [DecidableEq R]

/-- The loop of `is_bulk_moment` (`moments.py:354-361`): `none` is the early `return False`. -/
def bulkLoop (dim : ℕ) : MPoly R → Bool → List R → Option (Bool × List R)
  | [], quadratic, found => some (quadratic, found)
  | (c, m) :: p, quadratic, found =>
    if m.sum = 2 then
      bulkLoop dim p true ((List.range dim).map fun i => (found.getD i 0) + if m.getD i 0 = 2 then c else 0)
    else if m.sum > 2 then none
    else bulkLoop dim p quadratic found

/-- `is_bulk_moment` of a polynomial given by its summands (`moments.py:348-362`). -/
def isBulkMoment (p : MPoly R) (dim : ℕ) : Bool :=
  match bulkLoop dim p false (List.replicate dim 0) with
  | none => false
  | some (quadratic, found) =>
    quadratic && decide (found ≠ List.replicate dim 0) && decide (found.dedup.length = 1)

/-- `is_shear_moment` (`moments.py:365-378`). -/
def isShearMoment (p : MPoly R) (dim : ℕ) : Bool :=
  !isBulkMoment p dim && (p.any fun t => t.2.sum == 2) && p.all fun t => decide (t.2.sum ≤ 2)

end Lbm
