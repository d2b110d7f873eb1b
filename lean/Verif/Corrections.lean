/-
Model of `methods/cumulantbased/galilean_correction.py` and `methods/cumulantbased/fourth_order_correction.py`.

Polynomials are compared by their expansions: the polynomials in question are sums of monomials, for which equality of sympy
expressions is equality of the terms. `sp.Float` constants are exact. Quotients whose denominator is zero (`zoo` or `nan` in sympy) are
`none`.
-/
import Verif.CumulantMethod

namespace Lbm
namespace Corrections

open PExpr Matrix CumulantTransform

/-- equality of polynomials given as sums of monomials -/
def same (p q : PExpr) : Bool := p.expand.isPerm q.expand

/-- `p in polynomials` -/
def present (polys : List PExpr) (p : PExpr) : Bool := polys.any (same p)

/-- `polynomials.index(p)` -/
def position (polys : List PExpr) (p : PExpr) : ℕ := polys.findIdx (same p)

/-- `set(required) < set(polynomials)`: a proper subset -/
def properSubset (required polys : List PExpr) : Bool :=
  required.all (present polys) && polys.any fun p => !present required p

/-- `rrate_dict[p]`; the rates are given in the order of the polynomials -/
def rateOf {K : Type} (polys : List PExpr) (rates : List K) (p : PExpr) : Except PyErr K :=
  if present polys p then
    match rates[position polys p]? with
    | some r => .ok r
    | none => .error .keyError
  else .error .keyError

/-! ### Galilean correction -/

/-- `CORRECTED_POLYNOMIALS` (`galilean_correction.py:13`) -/
def corrected2 : List PExpr := [x ^ 2 - y ^ 2, x ^ 2 - z ^ 2, x ^ 2 + y ^ 2 + z ^ 2]

section Terms
variable {K : Type} [Field K]

/-- the derivative approximations `Dx, Dy, Dz` (`galilean_correction.py:79-83`, `fourth_order_correction.py:133-136`) -/
def derivatives (ω₁ ω₂ rho cxx cyy czz : K) : K × K × K :=
  let dx := -ω₁ / (2 * rho) * (2 * cxx - cyy - czz) - ω₂ / (2 * rho) * (cxx + cyy + czz - rho)
  (dx, dx + (3 * ω₁) / (2 * rho) * (cxx - cyy), dx + (3 * ω₁) / (2 * rho) * (cxx - czz))

/-- `corr_0, corr_1, corr_2` (`galilean_correction.py:86-90`) -/
def galileanTerms (ω₁ ω₂ rho : K) (u : Fin 3 → K) (dx dy dz : K) : List K :=
  [-3 * rho * (1 - ω₁ / 2) * (u 0 ^ 2 * dx - u 1 ^ 2 * dy),
   -3 * rho * (1 - ω₁ / 2) * (u 0 ^ 2 * dx - u 2 ^ 2 * dz),
   -3 * rho * (1 - ω₂ / 2) * (u 0 ^ 2 * dx + u 1 ^ 2 * dy + u 2 ^ 2 * dz)]

/-- the rates read by `get_galilean_correction_terms` (`galilean_correction.py:62-69`); the `except IndexError` clause does not apply
to the `KeyError` of a dictionary -/
def galileanRates [DecidableEq K] (polys : List PExpr) (rates : List K) : Except PyErr (K × K) :=
  match rateOf polys rates (x ^ 2 - y ^ 2) with
  | .error e => .error e
  | .ok ω₁ =>
    match rateOf polys rates (x ^ 2 - z ^ 2) with
    | .error e => .error e
    | .ok ω₁' =>
      if ω₁ = ω₁' then
        match rateOf polys rates (x ^ 2 + y ^ 2 + z ^ 2) with
        | .error e => .error e
        | .ok ω₂ => .ok (ω₁, ω₂)
      else .error .assertion

/-- `add_galilean_correction` (`galilean_correction.py:21-53`): positions of the corrected polynomials and rates. The message of the
second `ValueError` joins sympy expressions, which raises `TypeError` instead. -/
def addGalilean [DecidableEq K] (isCumulant isD3Q27 : Bool) (polys : List PExpr) (rates : List K) :
    Except PyErr (List ℕ × K × K) :=
  if !isCumulant || !isD3Q27 then .error .valueError
  else if !properSubset corrected2 polys then .error .typeError
  else
    match galileanRates polys rates with
    | .error e => .error e
    | .ok ω => .ok (corrected2.map (position polys), ω)

/-! ### Fourth-order correction -/

/-- `CORRECTED_FOURTH_ORDER_POLYNOMIALS` (`fourth_order_correction.py:11-16`) -/
def corrected4 : List PExpr :=
  [x ^ 2 * y ^ 2 - 2 * x ^ 2 * z ^ 2 + y ^ 2 * z ^ 2, x ^ 2 * y ^ 2 + x ^ 2 * z ^ 2 - 2 * y ^ 2 * z ^ 2,
   x ^ 2 * y ^ 2 + x ^ 2 * z ^ 2 + y ^ 2 * z ^ 2, x ^ 2 * y * z, x * y ^ 2 * z, x * y * z ^ 2]

/-- `denom_ab` (`fourth_order_correction.py:87`) -/
def denomAB (ω₁ ω₂ : K) : K := (ω₁ - ω₂) * (ω₂ * (2 + 3 * ω₁) - 8 * ω₁)

/-- a quotient of sympy expressions -/
def quotient [DecidableEq K] (a b : K) : Option K := if b = 0 then none else some (a / b)

/-- `get_optimal_additional_parameters` (`fourth_order_correction.py:69-94`) -/
def additionalParameters [DecidableEq K] (ω₁ ω₂ : K) : Option K × Option K :=
  (quotient (4 * (ω₁ * ω₁) + 2 * (ω₁ * ω₂) * (ω₁ - 6) + ω₂ * ω₂ * (ω₁ * (10 - 3 * ω₁) - 4)) (denomAB ω₁ ω₂),
   quotient (4 * (ω₁ * ω₂) * (9 * ω₁ - 16) - 4 * (ω₁ * ω₁) - 2 * (ω₂ * ω₂) * (2 + 9 * ω₁ * (ω₁ - 2))) (3 * denomAB ω₁ ω₂))

/-- the six correction terms (`fourth_order_correction.py:147-153`), with the mixed derivatives of lines 137-139 -/
def fourthOrderTerms (ω₁ ω₆ ω₇ ω₈ a b rho dx dy dz cxy cxz cyz : K) : List K :=
  [2 / 3 * (1 / ω₁ - 1 / 2) * ω₆ * a * rho * (dx - 2 * dy + dz),
   2 / 3 * (1 / ω₁ - 1 / 2) * ω₆ * a * rho * (dx + dy - 2 * dz),
   -(4 / 3) * (1 / ω₁ - 1 / 2) * ω₇ * a * rho * (dx + dy + dz),
   -(1 / 3) * (1 / ω₁ - 1 / 2) * ω₈ * b * rho * (-3 * ω₁ / rho * cyz),
   -(1 / 3) * (1 / ω₁ - 1 / 2) * ω₈ * b * rho * (-3 * ω₁ / rho * cxz),
   -(1 / 3) * (1 / ω₁ - 1 / 2) * ω₈ * b * rho * (-3 * ω₁ / rho * cxy)]

/-- the rates read by `get_fourth_order_correction_terms` (`fourth_order_correction.py:100-109`): `ω₁, ω₂, ω₆, ω₇, ω₈` -/
def fourthOrderRates [DecidableEq K] (polys : List PExpr) (rates : List K) : Except PyErr (K × K × K × K × K) :=
  match rateOf polys rates (x * y), rateOf polys rates (x ^ 2 + y ^ 2 + z ^ 2), corrected4.mapM (rateOf polys rates) with
  | .ok ω₁, .ok ω₂, .ok [ω₆, ω₆', ω₇, ω₈, ω₈', ω₈''] =>
    if ω₆ = ω₆' ∧ ω₈ = ω₈' ∧ ω₈' = ω₈'' then .ok (ω₁, ω₂, ω₆, ω₇, ω₈) else .error .assertion
  | _, _, _ => .error .keyError

/-- `add_fourth_order_correction` (`fourth_order_correction.py:21-66`) up to the insertion of the terms -/
def addFourthOrder [DecidableEq K] (isCumulant isD3Q27 : Bool) (polys : List PExpr) (rates : List K) :
    Except PyErr (List ℕ × K × K × K × K × K) :=
  if !isCumulant || !isD3Q27 then .error .valueError
  else if !properSubset corrected4 polys then .error .typeError
  else
    match fourthOrderRates polys rates with
    | .error e => .error e
    | .ok ω => .ok (corrected4.map (position polys), ω)

/-- the rates `ω₃, ω₄, ω₅` without limiters (`fourth_order_correction.py:187-197`) -/
def omega3 [DecidableEq K] (ω₁ ω₂ : K) : Option K :=
  quotient (8 * (ω₁ - 2) * (ω₂ * (3 * ω₁ - 1) - 5 * ω₁)) (8 * (5 - 2 * ω₁) * ω₁ + ω₂ * (8 + ω₁ * (9 * ω₁ - 26)))

@[inherit_doc omega3] def omega4 [DecidableEq K] (ω₁ ω₂ : K) : Option K :=
  quotient (8 * (ω₁ - 2) * (ω₁ + ω₂ * (3 * ω₁ - 7))) (ω₂ * (56 - 42 * ω₁ + 9 * (ω₁ * ω₁)) - 8 * ω₁)

@[inherit_doc omega3] def omega5 [DecidableEq K] (ω₁ ω₂ : K) : Option K :=
  quotient (24 * (ω₁ - 2) * (4 * (ω₁ * ω₁) + ω₁ * ω₂ * (18 - 13 * ω₁) + ω₂ * ω₂ * (2 + ω₁ * (6 * ω₁ - 11))))
    (16 * (ω₁ * ω₁) * (ω₁ - 6) - 2 * (ω₁ * ω₂) * (216 + 5 * ω₁ * (9 * ω₁ - 46)) +
      ω₂ * ω₂ * (ω₁ * (3 * ω₁ - 10) * (15 * ω₁ - 28) - 48))

end Terms

/-- a rate with limiter (`fourth_order_correction.py:209-213`); `c` is the cumulant -/
noncomputable def limited (ω rho limiter c : ℝ) : ℝ := ω + ((1 - ω) * |c|) / (rho * limiter + |c|)

/-- the ten rates assigned by `get_optimal_parametrisation_with_limiters` (`fourth_order_correction.py:158-237`); `c` are the
pre-collision monomial cumulants -/
noncomputable def parametrisation (ω₁ ω₂ rho limiter : ℝ) (c : List ℕ → ℝ) : Option (List ℝ) :=
  open Classical in
  match omega3 ω₁ ω₂, omega4 ω₁ ω₂, omega5 ω₁ ω₂ with
  | some ω₃, some ω₄, some ω₅ =>
    some [ω₁, ω₂, limited ω₃ rho limiter (c [1, 2, 0] + c [1, 0, 2]), limited ω₄ rho limiter (c [1, 2, 0] - c [1, 0, 2]),
      limited ω₅ rho limiter (c [1, 1, 1]), 1, 1, 1, 1, 1]
  | _, _, _ => none

/-! ### The corrected collision -/

section Collide
variable {D : ℕ} {S : Stencil D}

open CumulantMethod

/-- `for sym, cor in zip(poly_symbols, …): subexp_dict[sym] += cor`, as a vector of the added terms -/
def place {K : Type} [Field K] (Q : ℕ) (positions : List ℕ) (terms : List K) (i : Fin Q) : K :=
  ((positions.zip terms).map fun p => if p.1 = i.val then p.2 else 0).sum

/-- pre-collision cumulants of the polynomials, as in `CumulantMethod.Method.collide` -/
noncomputable def preCumulants (m : CumulantMethod.Method S) (t : CumulantTransform.Transform S.Q) (cms : List (List ℕ))
    (b : (Fin D → ℝ) → List ℕ → ℝ) (includeForce : Bool) (f : Fin S.Q → ℝ) : Fin S.Q → ℝ :=
  forwardTransform D t (m.rho f) (m.vel f) (CumulantMethod.Method.symbolValue cms fun i =>
    (CumulantMethod.Method.pdfsToCentral S cms (m.vel f) *ᵥ f) i + b (m.vel f) (cms.getD i []) + (m.forcing includeForce cms f).1.getD i 0)

/-- the collision after `subexp_dict[sym] += cor` (`galilean_correction.py:47-48`, `fourth_order_correction.py:60-61`): terms `corr f` are
added to the post-collision cumulants; the rates may depend on the populations (limiters) -/
noncomputable def collideCorrected (m : CumulantMethod.Method S) (t : CumulantTransform.Transform S.Q) (cms : List (List ℕ))
    (b : (Fin D → ℝ) → List ℕ → ℝ) (d corr : (Fin S.Q → ℝ) → Fin S.Q → ℝ) (includeForce : Bool) (f : Fin S.Q → ℝ) : Fin S.Q → ℝ :=
  let c := preCumulants m t cms b includeForce f
  let post : Fin S.Q → ℝ := c + diagonal (d f) *ᵥ (m.ceq f - c) + corr f
  let kappaPost : Fin S.Q → ℝ := fun i => backwardTransform D t (m.rho f) (m.vel f) (fun _ => 0) post (cms.getD i []) +
    (m.forcing includeForce cms f).2.getD i 0
  (CumulantMethod.Method.pdfsToCentral S cms (m.vel f))⁻¹ *ᵥ fun i => kappaPost i - b (m.vel f) (cms.getD i [])

open Classical in
/-- the corrected rule -/
noncomputable def correctedRule (m : CumulantMethod.Method S) (d corr : (Fin S.Q → ℝ) → Fin S.Q → ℝ) (includeForce : Bool) :
    Except PyErr ((Fin S.Q → ℝ) → Fin S.Q → ℝ) :=
  match m.backgroundShift with
  | .error e => .error e
  | .ok b =>
    match construct D S.Q m.cumulants with
    | .error e => .error e
    | .ok t =>
      if (CumulantMethod.Method.pdfsToCentral S (sortExponents t.required) 0).det = 0 then .error .valueError
      else .ok (collideCorrected m t (sortExponents t.required) b d corr includeForce)

end Collide

end Corrections
end Lbm
