import Verif.FdStencils
import Mathlib.Algebra.MvPolynomial.PDeriv
import Mathlib.Algebra.MvPolynomial.Degrees
import Mathlib.Algebra.CharZero.Defs
import Mathlib.Algebra.Polynomial.Derivative
import Mathlib.Algebra.Polynomial.Eval.Degree
import Mathlib.Tactic.Ring
import Mathlib.Tactic.FieldSimp
import Mathlib.Tactic.LinearCombination
import Mathlib.Tactic.FinCases
import Mathlib.Tactic.IntervalCases
import Mathlib.Tactic.NormNum

/-!
# Property C77: consistency of the finite difference stencils of the high density ratio model
-/

namespace Lbm
namespace FdStencils

open MvPolynomial

variable {K : Type} [Field K]

/-- **Spec.** The polynomial at the midpoint of a cell. -/
noncomputable def Spec.sample (dx : K) (p : MvPolynomial (Fin 2) K) (x : Fin 2 → ℤ) : K := eval (fun i => dx * (x i : K)) p

/-- **Spec.** The Laplacian of a polynomial. -/
noncomputable def Spec.laplace (p : MvPolynomial (Fin 2) K) : MvPolynomial (Fin 2) K := pderiv 0 (pderiv 0 p) + pderiv 1 (pderiv 1 p)

/-- The monomial with a coefficient. -/
noncomputable def mon (c : K) (a b : ℕ) : MvPolynomial (Fin 2) K := C c * (X 0 ^ a * X 1 ^ b)

/-- A polynomial of degree at most `n` is a sum of monomials of degree at most `n`. -/
theorem poly_induction {n : ℕ} (P : MvPolynomial (Fin 2) K → Prop) (h0 : P 0) (hadd : ∀ p q, P p → P q → P (p + q))
    (hmon : ∀ (a b : ℕ) (c : K), a + b ≤ n → P (mon c a b)) (p : MvPolynomial (Fin 2) K) (hp : p.totalDegree ≤ n) : P p := by
  rw [p.as_sum]
  refine Finset.sum_induction _ P hadd h0 fun m hm => ?_
  have hd := (le_totalDegree hm).trans hp
  rw [monomial_eq, Finsupp.prod_fintype _ _ (by simp), Fin.prod_univ_two]
  refine hmon _ _ _ ?_
  rw [Finsupp.sum_fintype _ _ (by simp), Fin.sum_univ_two] at hd
  exact hd

theorem pderiv_zero_mon (c : K) (a b : ℕ) : pderiv 0 (mon c a b) = mon (c * a) (a - 1) b := by
  unfold mon
  rw [pderiv_C_mul, pderiv_mul, pderiv_pow, pderiv_pow, pderiv_X_self, pderiv_X_of_ne (by decide)]
  simp only [map_mul, map_natCast]
  ring

theorem pderiv_one_mon (c : K) (a b : ℕ) : pderiv 1 (mon c a b) = mon (c * b) a (b - 1) := by
  unfold mon
  rw [pderiv_C_mul, pderiv_mul, pderiv_pow, pderiv_pow, pderiv_X_self, pderiv_X_of_ne (by decide)]
  simp only [map_mul, map_natCast]
  ring

theorem sample_mon (dx c : K) (a b : ℕ) (x : Fin 2 → ℤ) :
    Spec.sample dx (mon c a b) x = c * ((dx * (x 0 : K)) ^ a * (dx * (x 1 : K)) ^ b) := by
  unfold Spec.sample mon
  simp

theorem sample_add (dx : K) (p q : MvPolynomial (Fin 2) K) (x : Fin 2 → ℤ) :
    Spec.sample dx (p + q) x = Spec.sample dx p x + Spec.sample dx q x := by
  unfold Spec.sample
  rw [map_add]

section
variable [CharZero K] (dx : K) (hdx : dx ≠ 0)

theorem gradient_add (p q : MvPolynomial (Fin 2) K) (x : Fin 2 → ℤ) (i : Fin 2) :
    gradient dx (Spec.sample dx (p + q)) x i = gradient dx (Spec.sample dx p) x i + gradient dx (Spec.sample dx q) x i := by
  simp only [gradient, gradientWeights, Spec.sample, map_add, List.map_cons, List.map_nil, List.sum_cons, List.sum_nil]
  ring

theorem second_add (p q : MvPolynomial (Fin 2) K) (x : Fin 2 → ℤ) (i : Fin 2) :
    second dx (Spec.sample dx (p + q)) x i = second dx (Spec.sample dx p) x i + second dx (Spec.sample dx q) x i := by
  simp [second, Spec.sample, map_add]
  ring

include hdx

/-- **C77 (gradient).** For polynomials up to third order the first derivative differs from the exact one by
`dx² / 6` times the derivative of the Laplacian: the leading error has no preferred direction, and it vanishes up to second order. -/
theorem C77_gradient (p : MvPolynomial (Fin 2) K) (hp : p.totalDegree ≤ 3) (x : Fin 2 → ℤ) (i : Fin 2) :
    gradient dx (Spec.sample dx p) x i =
      Spec.sample dx (pderiv i p) x + dx ^ 2 / 6 * Spec.sample dx (pderiv i (Spec.laplace p)) x := by
  refine poly_induction (n := 3) (fun p => gradient dx (Spec.sample dx p) x i =
      Spec.sample dx (pderiv i p) x + dx ^ 2 / 6 * Spec.sample dx (pderiv i (Spec.laplace p)) x) ?_ ?_ ?_ p hp
  · simp [gradient, gradientWeights, Spec.sample, Spec.laplace]
  · intro p q h1 h2
    rw [gradient_add, h1, h2]
    simp only [Spec.sample, Spec.laplace, map_add]
    ring
  · intro a b c hab
    have ha : a ≤ 3 := by omega
    have hb : b ≤ 3 := by omega
    fin_cases i
    all_goals
      interval_cases a <;> interval_cases b <;> first | omega | skip
    all_goals
      simp [gradient, gradientWeights, Spec.laplace, neighbor, pderiv_zero_mon, pderiv_one_mon, sample_mon, sample_add]
      try field_simp
      try ring_nf
      try simp

/-- **C77 (second derivative).** For polynomials up to third order the second derivative in direction `i` is three quarters of the exact one plus a
quarter of the one in the other direction. -/
theorem C77_second (p : MvPolynomial (Fin 2) K) (hp : p.totalDegree ≤ 3) (x : Fin 2 → ℤ) (i : Fin 2) :
    second dx (Spec.sample dx p) x i =
      (3 * Spec.sample dx (pderiv i (pderiv i p)) x + Spec.sample dx (pderiv (1 - i) (pderiv (1 - i) p)) x) / 4 := by
  refine poly_induction (n := 3) (fun p => second dx (Spec.sample dx p) x i =
      (3 * Spec.sample dx (pderiv i (pderiv i p)) x + Spec.sample dx (pderiv (1 - i) (pderiv (1 - i) p)) x) / 4) ?_ ?_ ?_ p hp
  · simp [second, Spec.sample]
  · intro p q h1 h2
    rw [second_add, h1, h2]
    simp only [Spec.sample, map_add]
    ring
  · intro a b c hab
    have ha : a ≤ 3 := by omega
    have hb : b ≤ 3 := by omega
    fin_cases i
    all_goals
      interval_cases a <;> interval_cases b <;> first | omega | skip
    all_goals
      simp [second, neighbor, pderiv_zero_mon, pderiv_one_mon, sample_mon, sample_add]
      try field_simp
      try ring_nf
      try simp

/-- **C77 (Laplacian).** The sum is consistent; the error for polynomials up to fourth order is
`dx² (∂₀⁴ + ∂₁⁴ + 3 ∂₀² ∂₁²) / 12`. -/
theorem C77_laplacian (p : MvPolynomial (Fin 2) K) (hp : p.totalDegree ≤ 4) (x : Fin 2 → ℤ) :
    laplacian dx (Spec.sample dx p) x = Spec.sample dx (Spec.laplace p) x +
      dx ^ 2 / 12 * (Spec.sample dx (pderiv 0 (pderiv 0 (pderiv 0 (pderiv 0 p)))) x + Spec.sample dx (pderiv 1 (pderiv 1 (pderiv 1 (pderiv 1 p)))) x +
        3 * Spec.sample dx (pderiv 0 (pderiv 0 (pderiv 1 (pderiv 1 p)))) x) := by
  refine poly_induction (n := 4) (fun p => laplacian dx (Spec.sample dx p) x = Spec.sample dx (Spec.laplace p) x +
      dx ^ 2 / 12 * (Spec.sample dx (pderiv 0 (pderiv 0 (pderiv 0 (pderiv 0 p)))) x + Spec.sample dx (pderiv 1 (pderiv 1 (pderiv 1 (pderiv 1 p)))) x +
        3 * Spec.sample dx (pderiv 0 (pderiv 0 (pderiv 1 (pderiv 1 p)))) x)) ?_ ?_ ?_ p hp
  · simp [laplacian, second, Spec.sample, Spec.laplace]
  · intro p q h1 h2
    unfold laplacian at h1 h2 ⊢
    rw [second_add, second_add]
    simp only [Spec.sample, Spec.laplace, map_add] at h1 h2 ⊢
    linear_combination h1 + h2
  · intro a b c hab
    have ha : a ≤ 4 := by omega
    have hb : b ≤ 4 := by omega
    interval_cases a <;> interval_cases b <;> first | omega | skip
    all_goals
      simp [laplacian, second, Spec.laplace, neighbor, pderiv_zero_mon, pderiv_one_mon, sample_mon, sample_add]
      try field_simp
      try ring_nf
      try simp

/-- **C77 (not isotropic).** The error of the Laplacian is no multiple of the square of the Laplacian, unlike for the isotropic nine point stencil. -/
theorem C77_laplacian_not_isotropic : ¬ ∃ lam : K, ∀ p : MvPolynomial (Fin 2) K, p.totalDegree ≤ 4 → ∀ x : Fin 2 → ℤ,
    laplacian dx (Spec.sample dx p) x = Spec.sample dx (Spec.laplace p) x + lam * dx ^ 2 * Spec.sample dx (Spec.laplace (Spec.laplace p)) x := by
  rintro ⟨lam, h⟩
  have h1 := h (X 0 ^ 4) ((totalDegree_pow _ _).trans (by rw [totalDegree_X])) 0
  have h2 := h (X 0 ^ 2 * X 1 ^ 2) ((totalDegree_mul _ _).trans (by
    have a := totalDegree_pow (X 0 : MvPolynomial (Fin 2) K) 2
    have b := totalDegree_pow (X 1 : MvPolynomial (Fin 2) K) 2
    rw [totalDegree_X] at a b
    omega)) 0
  rw [C77_laplacian dx hdx _ ((totalDegree_pow _ _).trans (by rw [totalDegree_X]))] at h1
  rw [C77_laplacian dx hdx _ ((totalDegree_mul _ _).trans (by
    have a := totalDegree_pow (X 0 : MvPolynomial (Fin 2) K) 2
    have b := totalDegree_pow (X 1 : MvPolynomial (Fin 2) K) 2
    rw [totalDegree_X] at a b
    omega))] at h2
  have m1 : (X 0 ^ 4 : MvPolynomial (Fin 2) K) = mon 1 4 0 := by simp [mon]
  have m2 : (X 0 ^ 2 * X 1 ^ 2 : MvPolynomial (Fin 2) K) = mon 1 2 2 := by simp [mon]
  rw [m1] at h1
  rw [m2] at h2
  simp [Spec.laplace, pderiv_zero_mon, pderiv_one_mon, sample_mon, sample_add] at h1 h2
  have h3 : dx ^ 2 * (1 / 12 - lam) = 0 := by linear_combination h1
  have h4 : dx ^ 2 * (1 - 8 * lam) = 0 := by linear_combination h2
  have hd := pow_ne_zero 2 hdx
  have h5 := (mul_eq_zero.1 h3).resolve_left hd
  have h6 := (mul_eq_zero.1 h4).resolve_left hd
  have h7 : (1 : K) = 0 := by linear_combination 3 * h6 - 24 * h5
  exact one_ne_zero h7

/-- **C77 (single second derivatives are inconsistent).** The second derivative of `y²` in direction `x` is one half instead of zero, and the one of `x²`
is three halves instead of two, whatever the grid spacing. -/
theorem C77_second_inconsistent (x : Fin 2 → ℤ) :
    second dx (Spec.sample dx (X 1 ^ 2)) x 0 = 1 / 2 ∧ Spec.sample dx (pderiv 0 (pderiv 0 (X 1 ^ 2))) x = 0 ∧
      second dx (Spec.sample dx (X 0 ^ 2)) x 0 = 3 / 2 ∧ Spec.sample dx (pderiv 0 (pderiv 0 (X 0 ^ 2))) x = 2 := by
  have hd : ∀ i : Fin 2, (X i ^ 2 : MvPolynomial (Fin 2) K).totalDegree ≤ 3 := fun i =>
    (totalDegree_pow _ _).trans (by rw [totalDegree_X]; norm_num)
  rw [C77_second dx hdx _ (hd 1), C77_second dx hdx _ (hd 0)]
  have h0 : (X 0 ^ 2 : MvPolynomial (Fin 2) K) = mon 1 2 0 := by simp [mon]
  have h1 : (X 1 ^ 2 : MvPolynomial (Fin 2) K) = mon 1 0 2 := by simp [mon]
  rw [h0, h1]
  simp [pderiv_zero_mon, pderiv_one_mon, sample_mon]
  norm_num

end

/-- The mixed derivative -/
def mixed (dx : K) (f : (Fin 2 → ℤ) → K) (x : Fin 2 → ℤ) : K :=
  (f (neighbor (neighbor x 0 1) 1 1) - f (neighbor (neighbor x 0 (-1)) 1 1) - f (neighbor (neighbor x 0 1) 1 (-1)) +
    f (neighbor (neighbor x 0 (-1)) 1 (-1))) / 4 / dx ^ 2

theorem stencil_mixed (dx : K) (f : (Fin 2 → ℤ) → K) (x : Fin 2 → ℤ) : stencil 2 dx f x [0, 1] = .ok (mixed dx f x) := rfl

/-- **C77 (mixed derivative).** The mixed derivative is exact for polynomials up to third order. -/
theorem C77_mixed [CharZero K] (dx : K) (hdx : dx ≠ 0) (p : MvPolynomial (Fin 2) K) (hp : p.totalDegree ≤ 3) (x : Fin 2 → ℤ) :
    stencil 2 dx (Spec.sample dx p) x [0, 1] = .ok (Spec.sample dx (pderiv 0 (pderiv 1 p)) x) := by
  rw [stencil_mixed]
  congr 1
  refine poly_induction (n := 3) (fun p => mixed dx (Spec.sample dx p) x = Spec.sample dx (pderiv 0 (pderiv 1 p)) x) ?_ ?_ ?_ p hp
  all_goals unfold mixed
  · simp [Spec.sample]
  · intro p q h1 h2
    simp only [Spec.sample, map_add] at h1 h2 ⊢
    linear_combination h1 + h2
  · intro a b c hab
    have ha : a ≤ 3 := by omega
    have hb : b ≤ 3 := by omega
    interval_cases a <;> interval_cases b <;> first | omega | skip
    all_goals
      simp [neighbor, pderiv_zero_mon, pderiv_one_mon, sample_mon, sample_add]
      try field_simp
      try ring_nf
      try simp

/-- **C77 (one dimension).** The standard stencils used in one dimension are exact for polynomials: the first derivative up to second, the
second derivative up to third order. -/
theorem C77_one_dim [CharZero K] (dx : K) (hdx : dx ≠ 0) (p : Polynomial K) (x : Fin 1 → ℤ) :
    (p.natDegree ≤ 2 → stencil 1 dx (fun y => p.eval (dx * (y 0 : K))) x [0] = .ok ((Polynomial.derivative p).eval (dx * (x 0 : K)))) ∧
    (p.natDegree ≤ 3 → stencil 1 dx (fun y => p.eval (dx * (y 0 : K))) x [0, 0] =
      .ok ((Polynomial.derivative (Polynomial.derivative p)).eval (dx * (x 0 : K)))) := by
  constructor
  · intro h
    have e := p.as_sum_range_C_mul_X_pow' (n := 3) (by omega)
    simp only [stencil, standard]
    congr 1
    rw [e]
    simp [Finset.sum_range_succ, neighbor]
    field_simp
    ring
  · intro h
    have e := p.as_sum_range_C_mul_X_pow' (n := 4) (by omega)
    simp only [stencil, standard, if_true]
    congr 1
    rw [e]
    simp [Finset.sum_range_succ, neighbor]
    field_simp
    ring

example : stencil 1 (1 / 2 : ℚ) (fun y => (Polynomial.X ^ 2 : Polynomial ℚ).eval (1 / 2 * (y 0 : ℚ))) ![6] [0] = .ok 6 := by
  rw [(C77_one_dim (1 / 2 : ℚ) (by norm_num) _ _).1 (by simp)]
  simp
  norm_num

/-- **C77 (errors).** Whatever is not supported is refused with the same exception. -/
theorem C77_error {D : ℕ} (dx : K) (f : (Fin D → ℤ) → K) (x : Fin D → ℤ) (indices : List (Fin D)) (e : PyErr)
    (h : stencil D dx f x indices = .error e) : e = .notImplemented := by
  match D, f, x, indices with
  | 0, _, _, _ => simp [stencil] at h; exact h.symm
  | 1, f, x, [] => simp [stencil, standard] at h; exact h.symm
  | 1, f, x, [i] => simp [stencil, standard] at h
  | 1, f, x, [i, j] => simp only [stencil, standard] at h; split_ifs at h
  | 1, f, x, i :: j :: k :: l => simp [stencil, standard] at h; exact h.symm
  | 2, f, x, [] => simp [stencil, stencil2] at h; exact h.symm
  | 2, f, x, [i] => simp [stencil, stencil2] at h
  | 2, f, x, [i, j] => simp only [stencil, stencil2, standard] at h; split_ifs at h
  | 2, f, x, i :: j :: k :: l => simp [stencil, stencil2] at h; exact h.symm
  | n + 3, _, _, _ => simp [stencil] at h; exact h.symm

/-- **C77 (what is supported).** In two dimensions first and second derivatives; in one dimension the standard ones; nothing in three. -/
theorem C77_supported {D : ℕ} (dx : K) (f : (Fin D → ℤ) → K) (x : Fin D → ℤ) (indices : List (Fin D)) :
    (∃ v, stencil D dx f x indices = .ok v) ↔ (D = 1 ∨ D = 2) ∧ (indices.length = 1 ∨ indices.length = 2) := by
  match D, f, x, indices with
  | 0, _, _, _ => simp [stencil]
  | 1, f, x, [] => simp [stencil, standard]
  | 1, f, x, [i] => simp [stencil, standard]
  | 1, f, x, [i, j] => simp [stencil, standard]; split_ifs <;> simp
  | 1, f, x, i :: j :: k :: l => simp [stencil, standard]
  | 2, f, x, [] => simp [stencil, stencil2]
  | 2, f, x, [i] => simp [stencil, stencil2]
  | 2, f, x, [i, j] => simp only [stencil, stencil2, standard]; split_ifs <;> simp
  | 2, f, x, i :: j :: k :: l => simp [stencil, stencil2]
  | n + 3, _, _, _ => simp [stencil]

example : gradient (1 / 10 : ℚ) (Spec.sample (1 / 10) (X 0 ^ 2 * C 3)) ![5, 0] 0 = 3 := by
  rw [C77_gradient (1 / 10 : ℚ) (by norm_num) _ ((totalDegree_mul _ _).trans (by
    have a := totalDegree_pow (X 0 : MvPolynomial (Fin 2) ℚ) 2
    rw [totalDegree_X] at a
    rw [totalDegree_C]
    omega))]
  have m : (X 0 ^ 2 * C 3 : MvPolynomial (Fin 2) ℚ) = mon 3 2 0 := by simp [mon, mul_comm]
  rw [m]
  simp [Spec.laplace, pderiv_zero_mon, pderiv_one_mon, sample_mon, sample_add]
  norm_num

end FdStencils
end Lbm
