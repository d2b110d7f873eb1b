/-
Model of the expansion of derivatives (`chapman_enskog/derivative.py:6-23`) and of `_ce_recombine`
(`chapman_enskog/chapman_enskog.py:86-90`).

Arguments of derivatives are names: derivatives of derivatives are left out.  Derivatives are replaced simultaneously; `subs` with a
dictionary does the same if no derivative of the label has a superscript, or if there is only one.
-/
import Mathlib.Algebra.Field.Defs

namespace Lbm
namespace DerivExpansion

/-- Expressions with `Diff(arg, target, superscript)` of pystencils as leaves; the superscript is -1 if there is none. -/
inductive Ex (K : Type) where
  | num (a : K)
  | sym (s : ℕ)
  | diff (arg target : ℕ) (superscript : ℤ)
  | add (a b : Ex K)
  | mul (a b : Ex K)

variable {K : Type} [Field K]

namespace Ex

/-- replace derivatives by expressions -/
def replace (g : ℕ → ℕ → ℤ → Option (Ex K)) : Ex K → Ex K
  | num a => num a
  | sym s => sym s
  | diff a t s => (g a t s).getD (diff a t s)
  | add a b => add (replace g a) (replace g b)
  | mul a b => mul (replace g a) (replace g b)

end Ex

open Ex

/-- `sum([eps ** i * Diff(arg, label, i) for i in range(start, stop)])` -/
def series (eps : K) (arg label start stop : ℕ) : Ex K :=
  (List.range' start (stop - start)).foldl (fun e (i : ℕ) => add e (mul (num (eps ^ i)) (diff arg label i))) (num 0)

/-- `chapman_enskog_derivative_expansion` (`derivative.py:6-12`) -/
def expand (eps : K) (label start stop : ℕ) (e : Ex K) : Ex K :=
  e.replace fun a t _ => if t = label then some (series eps a t start stop) else none

/-- `chapman_enskog_derivative_recombination` (`derivative.py:15-23`) -/
def recombine (eps : K) (label start stop : ℕ) (e : Ex K) : Ex K :=
  e.replace fun a t s =>
    if t = label ∧ s = (stop : ℤ) - 1 then
      some (mul (add (diff a label (-1)) (mul (num (-1)) (series eps a label start (stop - 1)))) (num (eps ^ (stop - 1))⁻¹))
    else none

/-- `_ce_recombine` (`chapman_enskog.py:86-90`); `t` is the label of the time, which is not one of the coordinates -/
def ceRecombine (eps : K) (t dim : ℕ) (e : Ex K) : Ex K :=
  (List.range dim).foldl (fun e l => recombine eps l 1 2 e) (recombine eps t 1 3 e)

end DerivExpansion
end Lbm
