/-
Model of the chimera transforms: nested summation over the directions
(`moment_transforms/rawmomenttransforms.py:242-343`, `moment_transforms/centralmomenttransforms.py:522-607`) and the binomial
expansion (`moment_transforms/centralmomenttransforms.py:402-454`).

Right-hand sides are linear combinations with values as coefficients; velocities are values. Exponent tuples have as many
entries as the stencil has dimensions, except where noted. The conserved quantity equations, the background shift, the
matrices between monomials and polynomials and the simplifications applied afterwards are not part of this model.
-/
import Verif.MomentSets
import Verif.StencilCtor
import Mathlib.Algebra.Field.Basic
import Mathlib.Algebra.BigOperators.Group.List.Basic
import Mathlib.Data.Nat.Choose.Basic

namespace Lbm

namespace Chimera

/-- `statistical_quantity_symbol` (`moments.py:197-198`): exponents are written one after the other without separator -/
def sqName (exponents : List ℕ) : List Char := exponents.flatMap (Nat.toDigits 10)

/-- symbols of one transformation; the base names are fixed by the transformation -/
inductive Sym
  /-- symbol that is read: population `q` or monomial of the space to transform from -/
  | pdf (q : ℕ)
  /-- `sq_sym(from_base, exponents)` -/
  | frm (name : List Char)
  /-- `sq_sym(to_base, exponents)` -/
  | to (name : List Char)
  /-- `_partial_kappa_symbol` (`rawmomenttransforms.py:289-292`); directions and exponents are separated by underscores -/
  | part (fixed : List ℤ) (exponents : List ℕ)
  /-- `_chimera_symbol` (`centralmomenttransforms.py:409-415`) -/
  | chim (fixed : List ℕ) (exponents : List ℕ)
  deriving DecidableEq

variable {K : Type} [Field K]

/-- linear combination of symbols; the empty one is 0 -/
abbrev Rhs (K : Type) := List (K × Sym)

/-- value -/
def Rhs.eval (ρ : Sym → K) (r : Rhs K) : K := (r.map fun t => t.1 * ρ t.2).sum

/-- assignments in order -/
abbrev Asms (K : Type) := List (Sym × Rhs K)

/-- dictionary entry `d[k] = v`, existing keys keep their position -/
def setD (d : Asms K) (k : Sym) (v : Rhs K) : Asms K :=
  match d with
  | [] => [(k, v)]
  | (x, e) :: d => if x = k then (x, v) :: d else (x, e) :: setD d k v

/-- execution of assignments one after the other -/
def exec (l : Asms K) (ρ : Sym → K) : Sym → K :=
  l.foldl (fun ρ p => Function.update ρ p.1 (Rhs.eval ρ p.2)) ρ

/-! ### Summation over directions -/

/-- state: `partial_sums_dict` and `monomial_eqs` -/
structure CSt (K : Type) where
  /-- `partial_sums_dict` -/
  sums : Asms K
  /-- `monomial_eqs` -/
  eqs : Asms K

/-- `collect_partial_sums` (`rawmomenttransforms.py:297-318`, `centralmomenttransforms.py:566-587`); the exponents not yet used are
passed on instead of a dimension. `st` is the stencil, `w i d e` the factor: `d ** e` for raw moments and `(d - u_i) ** e` for
central moments. The returned right-hand side is the symbol, or empty for 0. -/
def collect (st : List (List ℤ)) (w : ℕ → ℤ → ℕ → K) (all : List ℕ) : List ℤ → List ℕ → CSt K → Rhs K × CSt K
  | fixed, [], s =>
    match st.findIdx? (· == fixed) with
    | some q => ([(1, .pdf q)], s)
    | none => ([], s)
  | fixed, e :: rest, s =>
    let (r1, s1) := collect st w all (fixed ++ [-1]) rest s
    let (r2, s2) := collect st w all (fixed ++ [0]) rest s1
    let (r3, s3) := collect st w all (fixed ++ [1]) rest s2
    let f := fixed.length
    let sum := (r1.map fun t => (t.1 * w f (-1) e, t.2)) ++ (r2.map fun t => (t.1 * w f 0 e, t.2)) ++
      (r3.map fun t => (t.1 * w f 1 e, t.2))
    if f = 0 then ([(1, .to (sqName all))], { s3 with eqs := s3.eqs ++ [(.to (sqName all), sum)] })
    else ([(1, .part fixed (e :: rest))], { s3 with sums := setD s3.sums (.part fixed (e :: rest)) sum })

/-- loop over the exponent tuples and order of the assignments (`rawmomenttransforms.py:320-334`,
`centralmomenttransforms.py:589-600`): partial sums, then monomials -/
def sumChimera (st : List (List ℤ)) (w : ℕ → ℤ → ℕ → K) (exponents : List (List ℕ)) : Asms K :=
  let s := exponents.foldl (fun s e => (collect st w e [] e s).2) { sums := [], eqs := [] }
  s.sums ++ s.eqs

/-- `extract_monomials` (`moments.py:551-569`), as a list instead of a set -/
def extractMonomials (dim : ℕ) (polys : List PExpr) : List (List ℕ) :=
  (polys.flatMap fun p => (p.expand.filter fun t => t.1 ≠ 0).map fun t => t.2.take dim).dedup

/-- factor of the raw moments -/
def rawFactor (_ : ℕ) (d : ℤ) (e : ℕ) : K := (d : K) ^ e

/-- factor of the central moments -/
def centralFactor (u : ℕ → K) (i : ℕ) (d : ℤ) (e : ℕ) : K := ((d : K) - u i) ^ e

/-! ### Binomial expansion -/

/-- `BinomialChimera._derive` (`centralmomenttransforms.py:422-447`); `fixed ++ remaining` are the exponents, the depth is the length
of `fixed`. Result: the symbol or, at depth 0, the right-hand side of the assignment, and the dictionary. -/
def derive (v : List K) : List ℕ → List ℕ → Asms K → Rhs K × Asms K
  | fixed, [], d => ([(1, .frm (sqName fixed))], d)
  | fixed, alpha :: rest, d =>
    if fixed ≠ [] ∧ .chim fixed (alpha :: rest) ∈ d.map Prod.fst then ([(1, .chim fixed (alpha :: rest))], d)
    else
      let r := (List.range (alpha + 1)).foldl (fun (acc : Rhs K × Asms K) a =>
          let x := derive v (fixed ++ [a]) rest acc.2
          (acc.1 ++ x.1.map (fun t => ((alpha.choose a : K) * v.getD fixed.length 0 ^ (alpha - a) * t.1, t.2)), x.2)) ([], d)
      if fixed = [] then r else ([(1, .chim fixed (alpha :: rest))], setD r.2 (.chim fixed (alpha :: rest)) r.1)

/-- `BinomialChimera.__call__` (`centralmomenttransforms.py:449-454`): chimera assignments, then the monomials. `v[depth]` raises
`IndexError` when a tuple has more entries than `v`. -/
def binomialChimera (v : List K) (monos : List (List ℕ)) : Except PyErr (Asms K) :=
  if monos.any (fun m => v.length < m.length) then .error .indexError
  else
    let r := monos.foldl (fun (acc : Asms K × Asms K) m =>
        let x := derive v [] m acc.2
        (acc.1 ++ [(.to (sqName m), x.1)], x.2)) ([], [])
    .ok (r.2 ++ r.1)

end Chimera

end Lbm
