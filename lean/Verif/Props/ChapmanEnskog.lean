import Verif.ChapmanEnskog
import Verif.Props.Matching
import Mathlib.Algebra.Polynomial.Taylor
import Mathlib.Algebra.Polynomial.HasseDeriv
import Mathlib.Algebra.Polynomial.Derivation
import Mathlib.Tactic.LinearCombination
import Mathlib.Tactic.FieldSimp
import Mathlib.Tactic.Module

/-!
# C68: Chapman–Enskog analysis
-/

namespace Lbm
namespace ChapmanEnskog

open scoped BigOperators
open Matrix

/-! ### The Taylor expansion -/

section
variable {K A : Type} [Field K] [CommRing A] [Algebra K A]

theorem applyTerms_append (d : A →ₗ[K] A) (f g : A) (l m : List Term) :
    applyTerms d f g (l ++ m) = applyTerms d f g l + applyTerms d f g m := by
  simp [applyTerms]

theorem applyTerms_shift [CharZero K] (d : A →ₗ[K] A) (f g : A) (l : List Term) :
    applyTerms d f g (shiftTerms l) = -((1 / 2 : K) • d (applyTerms d f g l)) := by
  induction l with
  | nil => simp [applyTerms, shiftTerms]
  | cons t l ih =>
    have h : applyTerms d f g (shiftTerms (t :: l)) = ((-(t.coef / 2) : ℚ) : K) • (d^[t.op + 1])
        (t.pdf.pick f g) + applyTerms d f g (shiftTerms l) := rfl
    have h' : applyTerms d f g (t :: l) = (t.coef : K) • (d^[t.op])
        (t.pdf.pick f g) + applyTerms d f g l := rfl
    rw [h, ih, h', Function.iterate_succ_apply']
    push_cast
    rw [map_add, map_smul]
    module

theorem applyTerms_filter (d : A →ₗ[K] A) (f g : A) (l : List Term) (n : ℕ)
    (h : ∀ t ∈ l, t.dt = n + 1 → (d^[t.op]) (t.pdf.pick f g) = 0) :
    applyTerms d f g (l.filter fun t => t.dt ≠ n + 1) = applyTerms d f g l := by
  induction l with
  | nil => rfl
  | cons t l ih =>
    have ih := ih fun t ht => h t (List.mem_cons_of_mem _ ht)
    by_cases ht : t.dt = n + 1
    · rw [List.filter_cons_of_neg (by simp [ht]), ih]
      simp only [applyTerms, List.map_cons, List.sum_cons]
      rw [h t (List.mem_cons_self ..) ht, smul_zero, zero_add]
    · rw [List.filter_cons_of_pos (by simp [ht])]
      simp only [applyTerms, List.map_cons, List.sum_cons] at ih ⊢
      rw [ih]

theorem applyTerms_base (d : A →ₗ[K] A) (f g : A) (n : ℕ) : applyTerms d f g (baseTerms n) =
    (∑ k ∈ Finset.range n, (((1 / ((k + 1).factorial : ℚ)) : ℚ) : K) • (d^[k + 1]) f) - g := by
  unfold baseTerms
  rw [applyTerms_append]
  have h1 : applyTerms d f g [⟨-1, 1, 0, .collided⟩] = -g := by simp [applyTerms, Pdf.pick]
  rw [h1, sub_eq_add_neg]
  congr 1
  simp only [applyTerms, List.map_map]
  rw [Finset.sum_range, ← List.sum_ofFn, ← List.map_coe_finRange_eq_range, List.map_map, List.ofFn_eq_map]
  rfl

end

section
variable {K : Type} [Field K] [CharZero K]
open Polynomial

/-- The derivative of polynomials, the fields on one characteristic. -/
noncomputable def der : K[X] →ₗ[K] K[X] := Polynomial.derivative

theorem der_iterate (p : K[X]) (k : ℕ) : (der^[k]) p = Polynomial.derivative^[k] p := rfl

theorem shift_eq_sum (p : K[X]) (n : ℕ) (h : p.natDegree ≤ n) :
    p.comp (X + 1) = p + ∑ k ∈ Finset.range n, (((1 / ((k + 1).factorial : ℚ)) : ℚ) : K) • (der^[k + 1]) p := by
  have hk : ∀ k, (((1 / (k.factorial : ℚ)) : ℚ) : K) • (der^[k]) p = hasseDeriv k p := by
    intro k
    rw [der_iterate, ← Polynomial.factorial_smul_hasseDeriv]
    have : ((k.factorial : ℕ) : K) ≠ 0 := by exact_mod_cast k.factorial_ne_zero
    push_cast
    rw [LinearMap.smul_apply, ← Nat.cast_smul_eq_nsmul K, smul_smul, one_div, inv_mul_cancel₀ this, one_smul]
  have h0 : p = hasseDeriv 0 p := by simp
  simp only [hk]
  rw [h0] 
  nth_rw 1 [← h0]
  have hs : hasseDeriv 0 p + ∑ k ∈ Finset.range n, hasseDeriv (k + 1) (hasseDeriv 0 p) =
      ∑ k ∈ Finset.range (n + 1), hasseDeriv k p := by
    rw [Finset.sum_range_succ', ← h0, add_comm]
  rw [hs]
  refine Polynomial.funext fun x => ?_
  have e1 : (p.comp (X + 1)).eval x = (taylor x p).eval 1 := by
    rw [taylor_eval]; simp [add_comm]
  rw [e1, eval_eq_sum_range' (n := n + 1) (by rw [natDegree_taylor]; omega), Polynomial.eval_finset_sum]
  exact Finset.sum_congr rfl fun k _ => by rw [taylor_coeff, one_pow, mul_one]

/-- C68. The expanded equation is exact for fields that are polynomials of at most the order of the expansion on the
characteristic: its left side is `f(x + c, t + 1) - f(x, t)` minus the collision operator. -/
theorem C68_taylor_exact (n : ℕ) (hn : 1 ≤ n) (p g : K[X]) (h : p.natDegree ≤ n) :
    applyTerms der p g (taylorEquation n false) = p.comp (X + 1) - p - g := by
  unfold taylorEquation
  rw [if_neg (by simp), applyTerms_filter, applyTerms_base, shift_eq_sum p n h]
  · ring
  · intro t ht hdt
    simp only [baseTerms, List.mem_append, List.mem_map, List.mem_range, List.mem_singleton] at ht
    rcases ht with ⟨k, hk, rfl⟩ | rfl
    · simp only at hdt; omega
    · simp only at hdt; omega

/-- C68. The shifted equation is `1 - 1/2 d` applied to that. -/
theorem C68_taylor_shifted (n : ℕ) (hn : 2 ≤ n) (p g : K[X]) (h : p.natDegree ≤ n) :
    applyTerms der p g (taylorEquation n true) =
      (p.comp (X + 1) - p - g) - (1 / 2 : K) • derivative (p.comp (X + 1) - p - g) := by
  have key : applyTerms der p g (baseTerms n) = p.comp (X + 1) - p - g := by
    rw [applyTerms_base, shift_eq_sum p n h]; ring
  unfold taylorEquation
  rw [if_pos rfl, applyTerms_filter, applyTerms_append, applyTerms_shift, key, sub_eq_add_neg]
  · rfl
  · intro t ht hdt
    simp only [baseTerms, shiftTerms, List.map_append, List.map_map, List.mem_append, List.mem_map, List.mem_range,
      List.mem_singleton, List.map_cons, List.map_nil, Function.comp_apply] at ht
    rcases ht with (⟨k, hk, rfl⟩ | rfl) | (⟨k, hk, rfl⟩ | rfl)
    · simp only at hdt; omega
    · simp only at hdt; omega
    · simp only at hdt
      have hk' : k + 1 + 1 = n + 1 := by omega
      simp only [hk', Pdf.pick, der_iterate]
      exact Polynomial.iterate_derivative_eq_zero (by omega)
    · simp only at hdt; omega

example : applyTerms der (X ^ 2 : ℚ[X]) X (taylorEquation 2 true) =
    ((X ^ 2 : ℚ[X]).comp (X + 1) - X ^ 2 - X) - (1 / 2 : ℚ) • derivative ((X ^ 2 : ℚ[X]).comp (X + 1) - X ^ 2 - X) :=
  C68_taylor_shifted 2 le_rfl _ _ (by simp)

end

/-- C68. The equation used by the analysis: the shift removes the second derivative of the populations. -/
theorem C68_taylor_second_order : taylorEquation 2 true =
    [⟨1, 1, 1, .f⟩, ⟨1 / 2, 2, 2, .f⟩, ⟨-1, 1, 0, .collided⟩, ⟨-(1 / 2), 2, 2, .f⟩, ⟨1 / 2, 2, 1, .collided⟩] := by
  decide +kernel

/-! ### The ansatz -/

section
variable {K A : Type} [Field K] [CommRing A] [Algebra K A]

theorem applyExpanded_sum (d : ℕ → (A →ₗ[K] A)) (g : ℕ → A) (a b : ℕ) (hd : ∀ i, a ≤ i → d i = 0)
    (hg : ∀ j, b ≤ j → g j = 0) (N : ℕ) (hN : a + b ≤ N + 1) (ε : K) :
    ∑ n ∈ Finset.range N, ε ^ n • applyExpanded d g n =
      (∑ i ∈ Finset.range a, ε ^ i • d i) (∑ j ∈ Finset.range b, ε ^ j • g j) := by
  have h1 : (∑ i ∈ Finset.range a, ε ^ i • d i) (∑ j ∈ Finset.range b, ε ^ j • g j) =
      ∑ p ∈ Finset.range a ×ˢ Finset.range b, ε ^ (p.1 + p.2) • d p.1 (g p.2) := by
    rw [Finset.sum_product, LinearMap.sum_apply]
    refine Finset.sum_congr rfl fun i _ => ?_
    rw [LinearMap.smul_apply, map_sum, Finset.smul_sum]
    refine Finset.sum_congr rfl fun j _ => ?_
    rw [map_smul, smul_smul, pow_add]
  have h2 : ∀ n, ε ^ n • applyExpanded d g n = ∑ p ∈ (Finset.range a ×ˢ Finset.range b).filter (fun p => p.1 + p.2 = n),
      ε ^ (p.1 + p.2) • d p.1 (g p.2) := by
    intro n
    unfold applyExpanded
    rw [Finset.smul_sum]
    symm
    refine Finset.sum_subset_zero_on_sdiff (fun p hp => ?_) (fun p hp => ?_) (fun p hp => ?_)
    · simpa using (Finset.mem_filter.1 hp).2
    · simp only [Finset.mem_sdiff, Finset.mem_antidiagonal, Finset.mem_filter, Finset.mem_product, Finset.mem_range,
        not_and] at hp
      by_cases ha : p.1 < a
      · by_cases hb : p.2 < b
        · exact absurd hp.1 (hp.2 ⟨ha, hb⟩)
        · rw [hg p.2 (by omega), map_zero, smul_zero]
      · rw [hd p.1 (by omega), LinearMap.zero_apply, smul_zero]
    · rw [(Finset.mem_filter.1 hp).2]
  rw [h1]
  simp only [h2]
  refine Finset.sum_fiberwise_of_maps_to (fun p hp => ?_) _
  simp only [Finset.mem_product, Finset.mem_range] at hp ⊢
  omega

theorem applyExpanded_zero (d : ℕ → (A →ₗ[K] A)) (g : ℕ → A) (a b : ℕ) (hd : ∀ i, a ≤ i → d i = 0)
    (hg : ∀ j, b ≤ j → g j = 0) (n : ℕ) (hn : a + b ≤ n + 1) : applyExpanded d g n = 0 := by
  refine Finset.sum_eq_zero fun p hp => ?_
  have := Finset.mem_antidiagonal.1 hp
  by_cases ha : a ≤ p.1
  · rw [hd _ ha, LinearMap.zero_apply]
  · rw [hg _ (by omega), map_zero]

/-- Repeated application. -/
theorem iterate_sum (d : ℕ → (A →ₗ[K] A)) (a : ℕ) (ha : 1 ≤ a) (hd : ∀ i, a ≤ i → d i = 0) (ε : K) (k : ℕ) :
    ∀ (g : ℕ → A) (b : ℕ), (∀ j, b ≤ j → g j = 0) → ∀ N, k * (a - 1) + b ≤ N →
      ∑ n ∈ Finset.range N, ε ^ n • ((applyExpanded d)^[k]) g n =
        ((∑ i ∈ Finset.range a, ε ^ i • d i : A →ₗ[K] A)^[k]) (∑ j ∈ Finset.range b, ε ^ j • g j) := by
  induction k with
  | zero =>
    intro g b hg N hN
    simp only [Function.iterate_zero, id]
    rw [zero_mul, zero_add] at hN
    symm
    refine Finset.sum_subset (Finset.range_mono hN) fun n _ hn => ?_
    rw [hg n (by simpa using hn), smul_zero]
  | succ k ih =>
    intro g b hg N hN
    have e : (k + 1) * (a - 1) = k * (a - 1) + (a - 1) := by ring
    rw [Function.iterate_succ_apply, Function.iterate_succ_apply,
      ih (applyExpanded d g) (b + (a - 1)) (fun j hj => applyExpanded_zero d g a b hd hg j (by omega)) N (by omega),
      applyExpanded_sum d g a b hd hg (b + (a - 1)) (by omega)]

/-- C68. The ansatz loses nothing: for every value of the expansion parameter, the equations by order add up to the
equation with the expanded derivative and populations inserted.  `a` bounds the orders of the derivative. -/
theorem C68_ansatz_sum (l : List Term) (d : ℕ → (A →ₗ[K] A)) (a : ℕ) (ha : 1 ≤ a) (hd : ∀ i, a ≤ i → d i = 0)
    (f g : ℕ → A) (m N : ℕ) (hm : ∀ t ∈ l, t.op ≤ m) (hN : m * (a - 1) + 3 ≤ N) (ε : K) :
    ∑ n ∈ Finset.range N, ε ^ n • ansatz l d f g n =
      applyTerms (∑ i ∈ Finset.range a, ε ^ i • d i) (∑ i ∈ Finset.Ico 0 3, ε ^ i • f i)
        (∑ i ∈ Finset.Ico 1 3, ε ^ i • g i) l := by
  have e1 : ∀ (s : ℕ), s ≤ 3 → ∀ h : ℕ → A, ∑ j ∈ Finset.range 3, ε ^ j • expandPdf s 3 h j = ∑ i ∈ Finset.Ico s 3, ε ^ i • h i := by
    intro s hs h
    unfold expandPdf
    rw [Finset.range_eq_Ico, ← Finset.sum_Ico_consecutive _ (Nat.zero_le s) hs]
    rw [Finset.sum_eq_zero, zero_add]
    · exact Finset.sum_congr rfl fun i hi => by rw [if_pos (by simpa using hi)]
    · intro i hi
      rw [if_neg (by simp at hi; omega), smul_zero]
  have z1 : ∀ (s : ℕ) (h : ℕ → A), ∀ j, 3 ≤ j → expandPdf s 3 h j = 0 := fun s h j hj => by
    unfold expandPdf; rw [if_neg (by omega)]
  induction l with
  | nil => simp [ansatz, applyTerms]
  | cons t l ih =>
    have ih := ih fun t ht => hm t (List.mem_cons_of_mem _ ht)
    have h1 := hm t (List.mem_cons_self ..)
    have hN' : t.op * (a - 1) + 3 ≤ N := by have := Nat.mul_le_mul_right (a - 1) h1; omega
    have hc : ∀ n, ansatz (t :: l) d f g n = (t.coef : K) •
        ((applyExpanded d)^[t.op]) (t.pdf.pick (expandPdf 0 3 f) (expandPdf 1 3 g)) n + ansatz l d f g n := fun n => rfl
    have hr : ∀ x y : A, ∀ D : A →ₗ[K] A, applyTerms D x y (t :: l) = (t.coef : K) • (D^[t.op]) (t.pdf.pick x y) +
        applyTerms D x y l := fun _ _ _ => rfl
    simp only [hc, hr, smul_add, Finset.sum_add_distrib, ih]
    congr 1
    simp only [smul_comm _ (t.coef : K), ← Finset.smul_sum]
    congr 1
    cases t.pdf with
    | f =>
      simp only [Pdf.pick]
      rw [iterate_sum d a ha hd ε t.op _ 3 (z1 0 f) N hN', e1 0 (by omega)]
    | collided =>
      simp only [Pdf.pick]
      rw [iterate_sum d a ha hd ε t.op _ 3 (z1 1 g) N hN', e1 1 (by omega)]

variable {D Q : ℕ}

theorem characteristic_one (d : Derivatives K A D) (c : Fin D → K) (g : A) :
    characteristic (1, 3) (1, 2) d.time d.space c 1 g = d.t1 g + ∑ a, c a • d.x a g := by
  simp [characteristic, expandDiff, Derivatives.time, Derivatives.space]

theorem characteristic_two (d : Derivatives K A D) (c : Fin D → K) (g : A) :
    characteristic (1, 3) (1, 2) d.time d.space c 2 g = d.t2 g := by
  simp [characteristic, expandDiff, Derivatives.time, Derivatives.space]

theorem characteristic_zero (d : Derivatives K A D) (c : Fin D → K) :
    characteristic (1, 3) (1, 2) d.time d.space c 0 = 0 := by
  simp [characteristic, expandDiff]

theorem characteristic_three (d : Derivatives K A D) (c : Fin D → K) (i : ℕ) (h : 3 ≤ i) :
    characteristic (1, 3) (1, 2) d.time d.space c i = 0 := by
  have h1 : ¬ (i < 3) := by omega
  have h2 : ¬ (i < 2) := by omega
  simp [characteristic, expandDiff, h1, h2]

/-- The derivative of first order along a velocity. -/
def d1 (d : Derivatives K A D) (c : Fin D → K) (g : A) : A := d.t1 g + ∑ a, c a • d.x a g

/-- C68. The equation of first order. -/
theorem C68_first_order (d : Derivatives K A D) (c : Fin D → K) (f g : ℕ → A) :
    equationsByOrder d c f g 1 = d1 d c (f 0) - g 1 := by
  unfold equationsByOrder
  rw [C68_taylor_second_order]
  simp [ansatz, Pdf.pick, applyExpanded, Finset.Nat.antidiagonal_succ, expandPdf, characteristic_one, characteristic_zero,
    d1]
  ring

/-- C68. The equation of second order. -/
theorem C68_second_order [CharZero K] (d : Derivatives K A D) (c : Fin D → K) (f g : ℕ → A) :
    equationsByOrder d c f g 2 = d1 d c (f 1) + d.t2 (f 0) - g 2 + (1 / 2 : K) • d1 d c (g 1) := by
  unfold equationsByOrder
  rw [C68_taylor_second_order]
  simp [ansatz, Pdf.pick, applyExpanded, Finset.Nat.antidiagonal_succ, expandPdf, characteristic_one, characteristic_two,
    characteristic_zero, d1]
  module

end

/-! ### Moments and the collision operator -/

section
variable {K A : Type} [Field K] [CommRing A] [Algebra K A] {D Q : ℕ}

/-- C68. The populations behind the post-collision moments are those of the linear collision operator, minus
`M⁻¹ S ^ exponent M`; in particular the exponent counts the applications of the operator. -/
theorem C68_post_collision (M : Matrix (Fin Q) (Fin Q) K) (hM : M.det ≠ 0) (rates : Fin Q → K) (e : ℕ) (g : Fin Q → A)
    (q : Fin Q) : postCollision M rates e g q = -∑ p, ((M⁻¹ * diagonal rates * M) ^ e) q p • g p := by
  have hu : IsUnit M.det := isUnit_iff_ne_zero.2 hM
  have hp : ∀ e, (M⁻¹ * diagonal rates * M) ^ e = M⁻¹ * diagonal (fun i => rates i ^ e) * M := by
    intro e
    induction e with
    | zero => simp [diagonal_one, nonsing_inv_mul M hu]
    | succ e ih =>
      rw [pow_succ, ih]
      have : M⁻¹ * diagonal (fun i => rates i ^ e) * M * (M⁻¹ * diagonal rates * M) =
          M⁻¹ * diagonal (fun i => rates i ^ e) * (M * M⁻¹) * diagonal rates * M := by
        simp only [Matrix.mul_assoc]
      rw [this, mul_nonsing_inv M hu, Matrix.mul_one, Matrix.mul_assoc M⁻¹, diagonal_mul_diagonal]
      simp only [pow_succ]
  rw [hp]
  unfold postCollision moment
  have e2 : ∀ p, (M⁻¹ * diagonal (fun i => rates i ^ e) * M) q p • g p = ∑ i, (M⁻¹ q i * (rates i ^ e * M i p)) • g p := by
    intro p
    rw [Matrix.mul_assoc, Matrix.mul_apply, Finset.sum_smul]
    simp only [diagonal_mul]
  simp only [e2, smul_smul, Finset.smul_sum]
  rw [Finset.sum_comm, ← Finset.sum_neg_distrib]
  refine Finset.sum_congr rfl fun i _ => ?_
  rw [← Finset.sum_neg_distrib]
  refine Finset.sum_congr rfl fun p _ => ?_
  rw [← neg_smul]
  congr 1
  ring

/-- A moment whose deviation from equilibrium is multiplied by `ω` in the collision. -/
def Relaxes (M : Matrix (Fin Q) (Fin Q) K) (rates : Fin Q → K) (φ : Fin Q → K) (ω : K) : Prop :=
  ∃ a : Fin Q → K, (∀ q, φ q = ∑ i, a i * M i q) ∧ ∀ i, a i ≠ 0 → rates i = ω

/-- C68. The collision operator multiplies a moment by minus its rate; the moment may be any combination of moments of
the same rate. -/
theorem C68_moment_relaxes (M : Matrix (Fin Q) (Fin Q) K) (hM : M.det ≠ 0) (rates : Fin Q → K) (φ : Fin Q → K) (ω : K)
    (h : Relaxes M rates φ ω) (e : ℕ) (g : Fin Q → A) :
    moment φ (postCollision M rates e g) = -(ω ^ e • moment φ g) := by
  obtain ⟨a, ha, hr⟩ := h
  have hu : IsUnit M.det := isUnit_iff_ne_zero.2 hM
  have hrow : ∀ i, moment (M i) (postCollision M rates e g) = -(rates i ^ e • moment (M i) g) := by
    intro i
    unfold postCollision
    generalize hG : (fun j => (-(rates j) ^ e • moment (M j) g : A)) = G
    have hG' : ∀ j, (-(rates j) ^ e • moment (M j) g : A) = G j := fun j => congrFun hG j
    simp only [hG']
    unfold moment
    simp only [Finset.smul_sum, smul_smul]
    rw [Finset.sum_comm]
    have : ∀ j, ∑ q, (M i q * M⁻¹ q j) • G j = (if i = j then 1 else 0 : K) • G j := fun j => by
      rw [← Finset.sum_smul]
      congr 1
      have := congrFun (congrFun (mul_nonsing_inv M hu) i) j
      rw [Matrix.mul_apply, Matrix.one_apply] at this
      exact this
    simp only [this, ite_smul, one_smul, zero_smul, Finset.sum_ite_eq, Finset.mem_univ, if_true]
    rw [← hG', neg_smul]
    unfold moment
    simp only [Finset.smul_sum, smul_smul]
  have lin : ∀ g : Fin Q → A, moment φ g = ∑ i, a i • moment (M i) g := by
    intro g
    unfold moment
    simp only [ha, Finset.sum_smul, Finset.smul_sum, smul_smul]
    rw [Finset.sum_comm]
  rw [lin, lin, Finset.smul_sum, ← Finset.sum_neg_distrib]
  refine Finset.sum_congr rfl fun i _ => ?_
  rw [hrow]
  by_cases h0 : a i = 0
  · simp [h0]
  · rw [hr i h0, smul_neg, smul_comm]

/-- Every moment relaxes with the rate of a single relaxation time method. -/
theorem relaxes_single (M : Matrix (Fin Q) (Fin Q) K) (hM : M.det ≠ 0) (ω : K) (φ : Fin Q → K) :
    Relaxes M (fun _ => ω) φ ω := by
  refine ⟨φ ᵥ* M⁻¹, fun q => ?_, fun _ _ => rfl⟩
  have : φ ᵥ* M⁻¹ ᵥ* M = φ := by
    rw [vecMul_vecMul, nonsing_inv_mul M (isUnit_iff_ne_zero.2 hM), vecMul_one]
  exact (congrFun this q).symm

theorem moment_add (φ : Fin Q → K) (g h : Fin Q → A) : moment φ (fun q => g q + h q) = moment φ g + moment φ h := by
  simp [moment, Finset.sum_add_distrib]

theorem moment_sub (φ : Fin Q → K) (g h : Fin Q → A) : moment φ (fun q => g q - h q) = moment φ g - moment φ h := by
  simp [moment, smul_sub, Finset.sum_sub_distrib]

theorem moment_smul (φ : Fin Q → K) (k : K) (g : Fin Q → A) : moment φ (fun q => k • g q) = k • moment φ g := by
  simp [moment, Finset.smul_sum, smul_comm k]

theorem moment_der (φ : Fin Q → K) (d : Derivation K A A) (g : Fin Q → A) :
    moment φ (fun q => d (g q)) = d (moment φ g) := by
  simp [moment, map_sum]

/-- C68. Moments of the derivative along the velocities: derivatives of the moments, with one more factor of the velocity
at the spatial ones. -/
theorem C68_take_moments (d : Derivatives K A D) (c : Fin Q → Fin D → K) (φ : Fin Q → K) (g : Fin Q → A) :
    moment φ (fun q => d1 d (c q) (g q)) = d.t1 (moment φ g) + ∑ a, d.x a (moment (fun q => φ q * c q a) g) := by
  unfold d1
  rw [moment_add, moment_der]
  congr 1
  simp only [moment, map_sum, Derivation.map_smul, Finset.smul_sum, smul_smul]
  rw [Finset.sum_comm]

/-- The moment of the first equation. -/
theorem momentEquation_one (d : Derivatives K A D) (c : Fin Q → Fin D → K) (M : Matrix (Fin Q) (Fin Q) K) (hM : M.det ≠ 0)
    (rates : Fin Q → K) (f : ℕ → Fin Q → A) (φ : Fin Q → K) (ω : K) (h : Relaxes M rates φ ω) :
    momentEquation d c M rates f 1 φ = d.t1 (moment φ (f 0)) + ∑ a, d.x a (moment (fun q => φ q * c q a) (f 0)) +
      ω • moment φ (f 1) := by
  unfold momentEquation
  simp only [C68_first_order]
  rw [moment_sub, C68_take_moments, C68_moment_relaxes M hM rates φ ω h 1, pow_one, sub_neg_eq_add]

/-- The moment of the second equation. -/
theorem momentEquation_two [CharZero K] (d : Derivatives K A D) (c : Fin Q → Fin D → K) (M : Matrix (Fin Q) (Fin Q) K)
    (hM : M.det ≠ 0) (rates : Fin Q → K) (f : ℕ → Fin Q → A) (φ : Fin Q → K) (ω : K) (h : Relaxes M rates φ ω) :
    momentEquation d c M rates f 2 φ = d.t1 (moment φ (f 1)) + ∑ a, d.x a (moment (fun q => φ q * c q a) (f 1)) +
      d.t2 (moment φ (f 0)) + ω • moment φ (f 2) + (1 / 2 : K) • (-(ω • d.t1 (moment φ (f 1))) +
        ∑ a, d.x a (moment (fun q => φ q * c q a) (postCollision M rates 1 (f 1)))) := by
  unfold momentEquation
  simp only [C68_second_order]
  rw [moment_add, moment_sub, moment_add, C68_take_moments, moment_smul, C68_take_moments, moment_der,
    C68_moment_relaxes M hM rates φ ω h 1, C68_moment_relaxes M hM rates φ ω h 1, pow_one, sub_neg_eq_add, map_neg,
    Derivation.map_smul]

end

/-! ### The macroscopic equations -/

namespace Spec
variable {K A : Type} [Field K] [CommRing A] [Algebra K A] {D Q : ℕ}

/-- The stress of a fluid with different viscosity factors for the deviatoric part and for the trace of the tensor `S`. -/
def stress (shear bulk : K) (S : Fin D → Fin D → A) (a b : Fin D) : A :=
  -(shear • (S a b - if a = b then (1 / (D : K)) • ∑ k, S k k else 0)) -
    bulk • (if a = b then (1 / (D : K)) • ∑ k, S k k else 0)

/-- The moments of an equilibrium up to third order; `ro` is the density in the compressible and 1 in the incompressible
case, `θ` tells whether the third moment has its cubic part. -/
structure EquilibriumMoments (c : Fin Q → Fin D → K) (g : Fin Q → A) (rho ro : A) (u : Fin D → A) (cs θ : K) : Prop where
  m0 : ∑ q, g q = rho
  m1 : ∀ a, ∑ q, c q a • g q = ro * u a
  m2 : ∀ a b, ∑ q, (c q a * c q b) • g q = (if a = b then cs • rho else 0) + ro * u a * u b
  m3 : ∀ a b e, ∑ q, (c q a * c q b * c q e) • g q = cs • ((if b = e then ro * u a else 0) + (if a = e then ro * u b else 0) +
    (if a = b then ro * u e else 0)) + θ • (ro * u a * u b * u e)

/-- Density and momentum are relaxed with some rate, the second moments with a rate for their deviatoric part and one for
their trace. -/
structure StressRates (M : Matrix (Fin Q) (Fin Q) K) (rates : Fin Q → K) (c : Fin Q → Fin D → K) (ωs ωb : K) : Prop where
  density : ∃ ω, Relaxes M rates (fun _ => 1) ω
  momentum : ∀ a, ∃ ω, Relaxes M rates (fun q => c q a) ω
  cross : ∀ a b, a ≠ b → Relaxes M rates (fun q => c q a * c q b) ωs
  normal : ∀ a b, Relaxes M rates (fun q => c q a * c q a - c q b * c q b) ωs
  trace : Relaxes M rates (fun q => ∑ a, c q a * c q a) ωb

/-- What the analysis uses of a hierarchy of populations: the moments up to second order of the first equation, those up
to first order of the second one, and the solvability conditions. -/
structure Hierarchy (d : Derivatives K A D) (c : Fin Q → Fin D → K) (M : Matrix (Fin Q) (Fin Q) K) (rates : Fin Q → K)
    (f : ℕ → Fin Q → A) : Prop where
  first0 : momentEquation d c M rates f 1 (fun _ => 1) = 0
  first1 : ∀ a, momentEquation d c M rates f 1 (fun q => c q a) = 0
  first2 : ∀ a b, momentEquation d c M rates f 1 (fun q => c q a * c q b) = 0
  second0 : momentEquation d c M rates f 2 (fun _ => 1) = 0
  second1 : ∀ a, momentEquation d c M rates f 2 (fun q => c q a) = 0
  solve0 : ∀ k, 1 ≤ k → ∑ q, f k q = 0
  solve1 : ∀ k, 1 ≤ k → ∀ a, ∑ q, c q a • f k q = 0

end Spec

section
variable {K A : Type} [Field K] [CharZero K] [CommRing A] [Algebra K A] {D Q : ℕ}
open Spec

theorem momentEquation_one' (d : Derivatives K A D) (c : Fin Q → Fin D → K) (M : Matrix (Fin Q) (Fin Q) K)
    (rates : Fin Q → K) (f : ℕ → Fin Q → A) (φ : Fin Q → K) :
    momentEquation d c M rates f 1 φ = d.t1 (moment φ (f 0)) + ∑ a, d.x a (moment (fun q => φ q * c q a) (f 0)) -
      moment φ (postCollision M rates 1 (f 1)) := by
  unfold momentEquation
  simp only [C68_first_order]
  rw [moment_sub, C68_take_moments]

omit [CharZero K] in
theorem moment_sub_left (φ ψ : Fin Q → K) (g : Fin Q → A) : moment (fun q => φ q - ψ q) g = moment φ g - moment ψ g := by
  simp [moment, sub_smul, Finset.sum_sub_distrib]

omit [CharZero K] in
theorem moment_sum_left {ι : Type} [Fintype ι] (φ : ι → Fin Q → K) (g : Fin Q → A) :
    moment (fun q => ∑ i, φ i q) g = ∑ i, moment (φ i) g := by
  simp only [moment, Finset.sum_smul]
  rw [Finset.sum_comm]

/-- C68. The conservation laws in terms of the equilibrium moments: mass and momentum on the first scale, and on the second
scale only the momentum with the stress of the change of the second moment. -/
theorem C68_conservation (d : Derivatives K A D) (c : Fin Q → Fin D → K) (M : Matrix (Fin Q) (Fin Q) K) (hM : M.det ≠ 0)
    (rates : Fin Q → K) (f : ℕ → Fin Q → A) (ωs ωb : K) (hs : ωs ≠ 0) (hb : ωb ≠ 0) (hr : StressRates M rates c ωs ωb)
    (h : Hierarchy d c M rates f) (P0 : A) (P1 : Fin D → A) (P2 : Fin D → Fin D → A) (P3 : Fin D → Fin D → Fin D → A)
    (m0 : ∑ q, f 0 q = P0) (m1 : ∀ a, ∑ q, c q a • f 0 q = P1 a) (m2 : ∀ a b, ∑ q, (c q a * c q b) • f 0 q = P2 a b)
    (m3 : ∀ a b e, ∑ q, (c q a * c q b * c q e) • f 0 q = P3 a b e) :
    d.t1 P0 + ∑ a, d.x a (P1 a) = 0 ∧ (∀ a, d.t1 (P1 a) + ∑ b, d.x b (P2 a b) = 0) ∧ d.t2 P0 = 0 ∧
      ∀ a, d.t2 (P1 a) + ∑ b, d.x b (stress (1 / ωs - 1 / 2) (1 / ωb - 1 / 2)
        (fun a b => d.t1 (P2 a b) + ∑ e, d.x e (P3 a b e)) a b) = 0 := by
  obtain ⟨ω0, r0⟩ := hr.density
  have M0 : moment (fun _ => (1 : K)) (f 0) = P0 := by rw [← m0]; simp [moment]
  have M1 : ∀ a, moment (fun q => c q a) (f 0) = P1 a := fun a => by rw [← m1]; rfl
  have M2 : ∀ a b, moment (fun q => c q a * c q b) (f 0) = P2 a b := fun a b => by rw [← m2]; rfl
  have M3 : ∀ a b e, moment (fun q => c q a * c q b * c q e) (f 0) = P3 a b e := fun a b e => by rw [← m3]; rfl
  have S0 : ∀ k, 1 ≤ k → moment (fun _ => (1 : K)) (f k) = 0 := fun k hk => by
    rw [← h.solve0 k hk]; simp [moment]
  have S1 : ∀ k, 1 ≤ k → ∀ a, moment (fun q => c q a) (f k) = 0 := fun k hk a => h.solve1 k hk a
  set R : Fin D → Fin D → A := fun a b => d.t1 (P2 a b) + ∑ e, d.x e (P3 a b e) with hR
  set U : Fin D → Fin D → A := fun a b => moment (fun q => c q a * c q b) (postCollision M rates 1 (f 1)) with hU
  set Pi : Fin D → Fin D → A := fun a b => moment (fun q => c q a * c q b) (f 1) with hPi
  -- the second moment of the collision operator
  have hUR : ∀ a b, U a b = R a b := fun a b => by
    have := h.first2 a b
    rw [momentEquation_one', M2] at this
    simp only [M3] at this
    exact (sub_eq_zero.1 this).symm
  -- the second moment of the first correction
  have hcross : ∀ a b, a ≠ b → R a b = -(ωs • Pi a b) := fun a b hab => by
    rw [← hUR, hU]
    simp only
    rw [C68_moment_relaxes M hM rates _ ωs (hr.cross a b hab) 1, pow_one]
  have hnormal : ∀ a b, R a a - R b b = -(ωs • (Pi a a - Pi b b)) := fun a b => by
    have := C68_moment_relaxes M hM rates _ ωs (hr.normal a b) 1 (f 1)
    rw [pow_one, moment_sub_left, moment_sub_left] at this
    rw [← hUR, ← hUR]
    exact this
  have htrace : ∑ a, R a a = -(ωb • ∑ a, Pi a a) := by
    have := C68_moment_relaxes M hM rates _ ωb hr.trace 1 (f 1)
    rw [pow_one, moment_sum_left, moment_sum_left] at this
    simp only [← hUR]
    exact this
  have hflux : ∀ a b, Pi a b + (1 / 2 : K) • U a b = stress (1 / ωs - 1 / 2) (1 / ωb - 1 / 2) R a b := by
    intro a b
    rw [hUR]
    unfold stress
    by_cases hab : a = b
    · subst hab
      simp only [if_true]
      have hD : (D : K) ≠ 0 := by
        have : D ≠ 0 := fun h0 => by subst h0; exact a.elim0
        exact_mod_cast this
      have hPr : (D : K) • Pi a a = -((1 / ωs) • ((D : K) • R a a - ∑ k, R k k)) - (1 / ωb) • ∑ k, R k k := by
        have h1 : (D : K) • Pi a a = ∑ k, (Pi a a - Pi k k) + ∑ k, Pi k k := by
          rw [Finset.sum_sub_distrib, sub_add_cancel, Finset.sum_const, Finset.card_univ, Fintype.card_fin,
            Nat.cast_smul_eq_nsmul]
        have h2 : ∀ k, Pi a a - Pi k k = -((1 / ωs) • (R a a - R k k)) := fun k => by
          rw [hnormal, smul_neg, smul_smul, one_div_mul_cancel hs, one_smul, neg_neg]
        have h3 : ∑ k, Pi k k = -((1 / ωb) • ∑ k, R k k) := by
          rw [htrace, smul_neg, smul_smul, one_div_mul_cancel hb, one_smul, neg_neg]
        rw [h1, h3]
        simp only [h2]
        rw [Finset.sum_neg_distrib, ← Finset.smul_sum, Finset.sum_sub_distrib, Finset.sum_const, Finset.card_univ,
          Fintype.card_fin, Nat.cast_smul_eq_nsmul, sub_eq_add_neg _ ((1 / ωb) • _)]
      have hP : Pi a a = (1 / (D : K)) • ((D : K) • Pi a a) := by rw [smul_smul, one_div_mul_cancel hD, one_smul]
      rw [hP, hPr]
      have : (1 / (D : K)) • (D : K) • R a a = R a a := by rw [smul_smul, one_div_mul_cancel hD, one_smul]
      rw [smul_sub, smul_neg, smul_comm (1 / (D : K)) (1 / ωs), smul_sub, this]
      module
    · simp only [if_neg hab]
      have hP : Pi a b = -((1 / ωs) • R a b) := by
        rw [hcross a b hab, smul_neg, smul_smul, one_div_mul_cancel hs, one_smul, neg_neg]
      rw [hP]
      module
  refine ⟨?_, fun a => ?_, ?_, fun a => ?_⟩
  · have := h.first0
    rw [momentEquation_one d c M hM rates f _ ω0 r0, M0, S0 1 le_rfl, smul_zero, add_zero] at this
    simpa only [one_mul, M1] using this
  · obtain ⟨ω1, r1⟩ := hr.momentum a
    have := h.first1 a
    rw [momentEquation_one d c M hM rates f _ ω1 r1, M1, S1 1 le_rfl, smul_zero, add_zero] at this
    simpa only [M2] using this
  · have := h.second0
    rw [momentEquation_two d c M hM rates f _ ω0 r0, M0, S0 1 le_rfl, S0 2 (by norm_num), smul_zero, map_zero] at this
    have hz : ∀ a, moment (fun q => c q a) (postCollision M rates 1 (f 1)) = 0 := fun a => by
      obtain ⟨ω1, r1⟩ := hr.momentum a
      rw [C68_moment_relaxes M hM rates _ ω1 r1, S1 1 le_rfl, smul_zero, neg_zero]
    simp only [one_mul, S1 1 le_rfl, hz, map_zero, Finset.sum_const_zero, smul_zero, neg_zero, add_zero, zero_add] at this
    exact this
  · obtain ⟨ω1, r1⟩ := hr.momentum a
    have := h.second1 a
    rw [momentEquation_two d c M hM rates f _ ω1 r1, M1, S1 1 le_rfl, S1 2 (by norm_num), smul_zero, map_zero, smul_zero,
      neg_zero, zero_add, zero_add, add_zero] at this
    rw [← this]
    simp only [← hflux]
    simp only [map_add, Derivation.map_smul, Finset.sum_add_distrib, Finset.smul_sum]
    rw [add_comm (∑ b, d.x b (moment _ (f 1))) (d.t2 (P1 a)), add_assoc]

end

section
variable {K A : Type} [Field K] [CommRing A] [Algebra K A] {D : ℕ}

/-- The sum of the derivatives of the third moments without the cubic part. -/
theorem sum_third (x : Fin D → Derivation K A A) (m : Fin D → A) (cs θ : K) (a b : Fin D) (w : Fin D → A) :
    ∑ e, x e (cs • ((if b = e then m a else 0) + (if a = e then m b else 0) + (if a = b then m e else 0)) + θ • w e) =
      cs • (x b (m a) + x a (m b) + if a = b then ∑ e, x e (m e) else 0) + θ • ∑ e, x e (w e) := by
  simp only [map_add, Derivation.map_smul, Finset.sum_add_distrib, ← Finset.smul_sum]
  congr 3
  · congr 1
    · rw [Finset.sum_eq_single b]
      · rw [if_pos rfl]
      · intro e _ he; rw [if_neg (Ne.symm he), map_zero]
      · simp
    · rw [Finset.sum_eq_single a]
      · rw [if_pos rfl]
      · intro e _ he; rw [if_neg (Ne.symm he), map_zero]
      · simp
  · split_ifs <;> simp

theorem sum_second (x : Fin D → Derivation K A A) (cs : K) (rho : A) (w : Fin D → A) (a : Fin D) :
    ∑ b, x b ((if a = b then cs • rho else 0) + w b) = cs • x a rho + ∑ b, x b (w b) := by
  simp only [map_add, Finset.sum_add_distrib]
  congr 1
  rw [Finset.sum_eq_single a]
  · rw [if_pos rfl, Derivation.map_smul]
  · intro e _ he; rw [if_neg (Ne.symm he), map_zero]
  · simp

/-- The change of the second moment of the compressible equilibrium. -/
theorem change_compressible (t : Derivation K A A) (x : Fin D → Derivation K A A) (rho : A) (u : Fin D → A) (cs θ : K)
    (h0 : t rho + ∑ a, x a (rho * u a) = 0)
    (h1 : ∀ a, t (rho * u a) + ∑ b, x b ((if a = b then cs • rho else 0) + rho * u a * u b) = 0) (a b : Fin D) :
    t ((if a = b then cs • rho else 0) + rho * u a * u b) + ∑ e, x e (cs • ((if b = e then rho * u a else 0) +
      (if a = e then rho * u b else 0) + (if a = b then rho * u e else 0)) + θ • (rho * u a * u b * u e)) =
      cs • (rho * (x a (u b) + x b (u a))) - (1 - θ) • ∑ e, x e (rho * u a * u b * u e) := by
  rw [sum_third x (fun a => rho * u a)]
  have e0 : t rho = -∑ a, x a (rho * u a) := eq_neg_of_add_eq_zero_left h0
  have e1 : ∀ a, t (rho * u a) = -(cs • x a rho + ∑ b, x b (rho * u a * u b)) := fun a => by
    have := h1 a
    rw [sum_second x cs rho (fun b => rho * u a * u b)] at this
    exact eq_neg_of_add_eq_zero_left this
  have e2 : t (rho * u a * u b) = u b * t (rho * u a) + u a * t (rho * u b) - u a * u b * t rho := by
    simp only [Derivation.leibniz, smul_eq_mul]; ring
  have e3 : ∑ e, x e (rho * u a * u b * u e) = u b * ∑ e, x e (rho * u a * u e) + u a * ∑ e, x e (rho * u b * u e) -
      u a * u b * ∑ e, x e (rho * u e) := by
    simp only [Finset.mul_sum]
    rw [← Finset.sum_add_distrib, ← Finset.sum_sub_distrib]
    refine Finset.sum_congr rfl fun e _ => ?_
    simp only [Derivation.leibniz, smul_eq_mul]; ring
  have e4 : t (if a = b then cs • rho else 0) = -(cs • if a = b then ∑ e, x e (rho * u e) else 0) := by
    split_ifs
    · rw [Derivation.map_smul, e0, smul_neg]
    · simp
  have e5 : x b (rho * u a) = rho * x b (u a) + u a * x b rho := by simp [Derivation.leibniz]
  have e6 : x a (rho * u b) = rho * x a (u b) + u b * x a rho := by simp [Derivation.leibniz]
  rw [map_add, e2, e1, e1, e0, e4, e5, e6, sub_smul, one_smul, e3]
  simp only [Algebra.smul_def, map_add, mul_add]
  ring

/-- The change of the second moment of the incompressible equilibrium. -/
theorem change_incompressible (t : Derivation K A A) (x : Fin D → Derivation K A A) (rho : A) (u : Fin D → A) (cs θ : K)
    (h0 : t rho + ∑ a, x a (u a) = 0)
    (h1 : ∀ a, t (u a) + ∑ b, x b ((if a = b then cs • rho else 0) + u a * u b) = 0) (a b : Fin D) :
    t ((if a = b then cs • rho else 0) + u a * u b) + ∑ e, x e (cs • ((if b = e then u a else 0) +
      (if a = e then u b else 0) + (if a = b then u e else 0)) + θ • (u a * u b * u e)) =
      cs • (x a (u b) + x b (u a)) - (cs • (u b * x a rho + u a * x b rho) + u b * ∑ e, x e (u a * u e) +
        u a * ∑ e, x e (u b * u e) - θ • ∑ e, x e (u a * u b * u e)) := by
  rw [sum_third x u]
  have e0 : t rho = -∑ a, x a (u a) := eq_neg_of_add_eq_zero_left h0
  have e1 : ∀ a, t (u a) = -(cs • x a rho + ∑ b, x b (u a * u b)) := fun a => by
    have := h1 a
    rw [sum_second x cs rho (fun b => u a * u b)] at this
    exact eq_neg_of_add_eq_zero_left this
  have e2 : t (u a * u b) = u b * t (u a) + u a * t (u b) := by
    simp only [Derivation.leibniz, smul_eq_mul]; ring
  have e4 : t (if a = b then cs • rho else 0) = -(cs • if a = b then ∑ e, x e (u e) else 0) := by
    split_ifs
    · rw [Derivation.map_smul, e0, smul_neg]
    · simp
  rw [map_add, e2, e1, e1, e4]
  simp only [Algebra.smul_def]
  ring

end

namespace Spec
variable {K A : Type} [Field K] [CommRing A] [Algebra K A] {D : ℕ}

/-- The physical derivatives, with the scales put together: `d/dt = ε d/dt1 + ε² d/dt2`, `d/dx = ε d/dx1`. -/
def dt (d : Derivatives K A D) (ε : K) (g : A) : A := ε • d.t1 g + ε ^ 2 • d.t2 g
def dx (d : Derivatives K A D) (ε : K) (a : Fin D) (g : A) : A := ε • d.x a g

/-- The tensor in the stress of the compressible method: twice the rate of strain, times the pressure, and the error that
is cubic in the velocity. -/
def strain (d : Derivatives K A D) (ε cs θ : K) (rho : A) (u : Fin D → A) (a b : Fin D) : A :=
  cs • (rho * (dx d ε a (u b) + dx d ε b (u a))) - (1 - θ) • ∑ e, dx d ε e (rho * u a * u b * u e)

/-- The same of the incompressible method, the error is of second order in the velocity and the density gradient. -/
def strainIncompressible (d : Derivatives K A D) (ε cs θ : K) (rho : A) (u : Fin D → A) (a b : Fin D) : A :=
  cs • (dx d ε a (u b) + dx d ε b (u a)) - (cs • (u b * dx d ε a rho + u a * dx d ε b rho) +
    u b * ∑ e, dx d ε e (u a * u e) + u a * ∑ e, dx d ε e (u b * u e) - θ • ∑ e, dx d ε e (u a * u b * u e))

end Spec

section
variable {K A : Type} [Field K] [CharZero K] [CommRing A] [Algebra K A] {D Q : ℕ}
open Spec

omit [CharZero K] in
theorem stress_smul (s b k : K) (S : Fin D → Fin D → A) (i j : Fin D) :
    stress s b (fun a b => k • S a b) i j = k • stress s b S i j := by
  unfold stress
  simp only [← Finset.smul_sum]
  split_ifs <;> module

/-- C68. The compressible Navier–Stokes equations: conservation of mass, and of momentum with the pressure `cs ρ` and the
stress of the two rates.  The density need not be invertible. -/
theorem C68_navier_stokes (d : Derivatives K A D) (c : Fin Q → Fin D → K) (M : Matrix (Fin Q) (Fin Q) K) (hM : M.det ≠ 0)
    (rates : Fin Q → K) (f : ℕ → Fin Q → A) (ωs ωb : K) (hs : ωs ≠ 0) (hb : ωb ≠ 0) (hr : StressRates M rates c ωs ωb)
    (h : Hierarchy d c M rates f) (rho : A) (u : Fin D → A) (cs θ : K)
    (he : EquilibriumMoments c (f 0) rho rho u cs θ) (ε : K) :
    dt d ε rho + ∑ a, dx d ε a (rho * u a) = 0 ∧
      ∀ a, dt d ε (rho * u a) + ∑ b, dx d ε b (rho * u a * u b) + dx d ε a (cs • rho) +
        ∑ b, dx d ε b (stress (1 / ωs - 1 / 2) (1 / ωb - 1 / 2) (strain d ε cs θ rho u) a b) = 0 := by
  obtain ⟨k1, k2, k3, k4⟩ := C68_conservation d c M hM rates f ωs ωb hs hb hr h _ _ _ _ he.m0 he.m1 he.m2 he.m3
  have hS : (fun a b => d.t1 ((if a = b then cs • rho else 0) + rho * u a * u b) + ∑ e, d.x e (cs •
      ((if b = e then rho * u a else 0) + (if a = e then rho * u b else 0) + (if a = b then rho * u e else 0)) +
      θ • (rho * u a * u b * u e))) =
      fun a b => cs • (rho * (d.x a (u b) + d.x b (u a))) - (1 - θ) • ∑ e, d.x e (rho * u a * u b * u e) := by
    funext a b
    exact change_compressible d.t1 d.x rho u cs θ k1 k2 a b
  have hS' : strain d ε cs θ rho u =
      fun a b => ε • (cs • (rho * (d.x a (u b) + d.x b (u a))) - (1 - θ) • ∑ e, d.x e (rho * u a * u b * u e)) := by
    funext a b
    unfold strain dx
    simp only [← Finset.smul_sum, ← smul_add, mul_smul_comm]
    module
  rw [hS] at k4
  refine ⟨?_, fun a => ?_⟩
  · unfold dt dx
    rw [← Finset.smul_sum, k3, smul_zero, add_zero, ← smul_add, k1, smul_zero]
  · rw [hS']
    simp only [stress_smul]
    unfold dt dx
    simp only [Derivation.map_smul, ← Finset.smul_sum]
    have e2 := k2 a
    rw [sum_second d.x cs rho (fun b => rho * u a * u b)] at e2
    have e4 := k4 a
    linear_combination (norm := module) ε • e2 + ε ^ 2 • e4

/-- C68. The incompressible Navier–Stokes equations of artificial compressibility. -/
theorem C68_navier_stokes_incompressible (d : Derivatives K A D) (c : Fin Q → Fin D → K) (M : Matrix (Fin Q) (Fin Q) K)
    (hM : M.det ≠ 0) (rates : Fin Q → K) (f : ℕ → Fin Q → A) (ωs ωb : K) (hs : ωs ≠ 0) (hb : ωb ≠ 0)
    (hr : StressRates M rates c ωs ωb) (h : Hierarchy d c M rates f) (rho : A) (u : Fin D → A) (cs θ : K)
    (he : EquilibriumMoments c (f 0) rho 1 u cs θ) (ε : K) :
    dt d ε rho + ∑ a, dx d ε a (u a) = 0 ∧
      ∀ a, dt d ε (u a) + ∑ b, dx d ε b (u a * u b) + dx d ε a (cs • rho) +
        ∑ b, dx d ε b (stress (1 / ωs - 1 / 2) (1 / ωb - 1 / 2) (strainIncompressible d ε cs θ rho u) a b) = 0 := by
  obtain ⟨k1, k2, k3, k4⟩ := C68_conservation d c M hM rates f ωs ωb hs hb hr h _ _ _ _ he.m0 he.m1 he.m2 he.m3
  simp only [one_mul] at k1 k2 k3 k4
  have hS : (fun a b => d.t1 ((if a = b then cs • rho else 0) + u a * u b) + ∑ e, d.x e (cs •
      ((if b = e then u a else 0) + (if a = e then u b else 0) + (if a = b then u e else 0)) + θ • (u a * u b * u e))) =
      fun a b => cs • (d.x a (u b) + d.x b (u a)) - (cs • (u b * d.x a rho + u a * d.x b rho) +
        u b * ∑ e, d.x e (u a * u e) + u a * ∑ e, d.x e (u b * u e) - θ • ∑ e, d.x e (u a * u b * u e)) := by
    funext a b
    exact change_incompressible d.t1 d.x rho u cs θ k1 k2 a b
  have hS' : strainIncompressible d ε cs θ rho u = fun a b => ε • (cs • (d.x a (u b) + d.x b (u a)) -
      (cs • (u b * d.x a rho + u a * d.x b rho) +
        u b * ∑ e, d.x e (u a * u e) + u a * ∑ e, d.x e (u b * u e) - θ • ∑ e, d.x e (u a * u b * u e))) := by
    funext a b
    unfold strainIncompressible dx
    simp only [← Finset.smul_sum, ← smul_add, mul_smul_comm]
    module
  rw [hS] at k4
  refine ⟨?_, fun a => ?_⟩
  · unfold dt dx
    rw [← Finset.smul_sum, k3, smul_zero, add_zero, ← smul_add, k1, smul_zero]
  · rw [hS']
    simp only [stress_smul]
    unfold dt dx
    simp only [Derivation.map_smul, ← Finset.smul_sum]
    have e2 := k2 a
    rw [sum_second d.x cs rho (fun b => u a * u b)] at e2
    have e4 := k4 a
    linear_combination (norm := module) ε • e2 + ε ^ 2 • e4

end

/-! ### The methods of the library -/

section
variable {K A : Type} [Field K] [CharZero K] [CommRing A] [Algebra K A]
open Spec MvPolynomial

/-- The values of the symbols `rho` (`none`) and `u_a` (`some a`). -/
def point {B : Type} {D : ℕ} (rho : B) (u : Fin D → B) (o : Option (Fin D)) : B := o.elim rho u

/-- Polynomials in the density and the velocity whose values are the populations of the second-order equilibrium. -/
def IsEquilibrium (st : List (List ℤ)) (comp : Bool)
    (P : Fin st.length → MvPolynomial (Option (Fin (st.headD []).length)) K) : Prop :=
  ∀ (r : K) (v : Fin (st.headD []).length → K), ∃ l, discreteMaxwellian st (List.ofFn v) r 2 (1 / 3) comp = some l ∧
    ∀ q : Fin st.length, l.getD q 0 = eval (point r v) (P q)

theorem exists_equilibrium : ∀ e ∈ Tables.predefined, (getWeights e.2.2).isSome → ∀ comp,
    ∃ P, IsEquilibrium (K := K) e.2.2 comp P := by
  intro e he hsome comp
  obtain ⟨ws, hws⟩ := Option.isSome_iff_exists.1 hsome
  obtain ⟨hl, -, -⟩ := C20_weights_isotropic (K := K) e he ws hws
  have hdim := predefined_rectangular e he
  let cu : Fin e.2.2.length → MvPolynomial (Option (Fin (e.2.2.headD []).length)) K := fun q =>
    ∑ a, C (Lbm.Spec.vel e.2.2 (e.2.2.headD []).length q a) * X (some a)
  let uu : MvPolynomial (Option (Fin (e.2.2.headD []).length)) K := ∑ a, X (some a) * X (some a)
  refine ⟨fun q => (if comp then X none else 1) * C (weightVec e.2.2 ws q) * ((if comp then 1 else X none) + C 3 * cu q +
    (C (9 / 2) * cu q ^ 2 - C (3 / 2) * uu)), fun r v => ?_⟩
  obtain ⟨l, h1, -, h2⟩ := discreteMaxwellian_getD e.2.2 hdim v r 2 comp ws hl hws
  refine ⟨l, h1, fun q => ?_⟩
  rw [h2 q]
  have hcu : eval (point r v) (cu q) = Lbm.Spec.dot (Lbm.Spec.vel e.2.2 (e.2.2.headD []).length q) v := by
    simp [cu, Lbm.Spec.dot, point]
  have huu : eval (point r v) uu = Lbm.Spec.dot v v := by simp [uu, Lbm.Spec.dot, point]
  have hg2 : g2 2 = (1 : K) := rfl
  have hg3 : g3 2 = (0 : K) := rfl
  simp only [map_mul, map_add, map_sub, map_pow, eval_C, hcu, huu, eqPoly, hg2, hg3]
  cases comp
  · simp only [rhoOut, rhoIn, point, Bool.false_eq_true, if_false, map_one, eval_X, Option.elim]; ring
  · simp only [rhoOut, rhoIn, point, if_true, map_one, eval_X, Option.elim]; ring

/-- The moments of the equilibrium, for fields in place of numbers. -/
theorem equilibrium_moments : ∀ e ∈ Tables.predefined, e.2.2.length ≠ 7 → ∀ (comp : Bool) P,
    IsEquilibrium (K := K) e.2.2 comp P → ∀ (rho : A) (u : Fin (e.2.2.headD []).length → A),
    EquilibriumMoments (Lbm.Spec.vel (K := K) e.2.2 (e.2.2.headD []).length) (fun q => aeval (point rho u) (P q)) rho
      (if comp then rho else 1) u (1 / 3) 0 := by
  intro e he h7 comp P hP rho u
  have hsome : (getWeights e.2.2).isSome := by
    obtain ⟨l, hl, -⟩ := hP 0 (fun _ => 0)
    unfold discreteMaxwellian at hl
    cases hw : getWeights e.2.2 with
    | none => rw [hw] at hl; simp at hl
    | some ws => rfl
  obtain ⟨ws, hws⟩ := Option.isSome_iff_exists.1 hsome
  obtain ⟨hl, h3, h5⟩ := C20_weights_isotropic (K := K) e he ws hws
  replace h5 := h5 h7
  have hdim := predefined_rectangular e he
  have hcs : (1 / 3 : K) ≠ 0 := by norm_num
  have key : ∀ r v q, eval (point r v) (P q) = eqPoly (Lbm.Spec.vel e.2.2 (e.2.2.headD []).length) (weightVec e.2.2 ws)
      (1 / 3) (rhoOut comp r) (rhoIn comp r) 1 0 v q := by
    intro r v q
    obtain ⟨l, h1, h2⟩ := hP r v
    obtain ⟨l', h1', -, h2'⟩ := discreteMaxwellian_getD e.2.2 hdim v r 2 comp ws hl hws
    rw [h1] at h1'
    obtain rfl := Option.some.inj h1'
    rw [← h2 q, h2' q]
    rfl
  -- an identity of values is an identity of polynomials, and holds for fields
  have lift : ∀ (φ : Fin e.2.2.length → K) (R : MvPolynomial (Option (Fin (e.2.2.headD []).length)) K),
      (∀ r v, ∑ q, φ q * eqPoly (Lbm.Spec.vel e.2.2 (e.2.2.headD []).length) (weightVec e.2.2 ws)
        (1 / 3) (rhoOut comp r) (rhoIn comp r) 1 0 v q = eval (point r v) R) →
      ∑ q, φ q • aeval (point rho u) (P q) = aeval (point rho u) R := by
    intro φ R h
    have : ∑ q, φ q • P q = R := by
      refine MvPolynomial.funext fun x => ?_
      have hx : x = point (x none) (fun a => x (some a)) := by funext o; cases o <;> rfl
      rw [hx, ← h]
      simp only [map_sum, smul_eval, key]
    rw [← this, map_sum]
    simp only [map_smul]
  have hio : ∀ r : K, rhoOut comp r * rhoIn comp r = r := fun r => by cases comp <;> simp [rhoOut, rhoIn]
  let ro : MvPolynomial (Option (Fin (e.2.2.headD []).length)) K := if comp then X none else 1
  have hro : ∀ (r : K) v, eval (point r v) ro = rhoOut comp r := fun r v => by cases comp <;> simp [ro, rhoOut, point]
  have hroA : aeval (point rho u) ro = if comp then rho else 1 := by cases comp <;> simp [ro, point]
  refine ⟨?_, fun a => ?_, fun a b => ?_, fun a b d => ?_⟩
  · have := lift (fun _ => 1) (X none) fun r v => by
      simp only [one_mul]
      rw [eqPoly_m0 h3 hcs, hio]; simp [point]
    simpa [point] using this
  · have := lift (fun q => Lbm.Spec.vel e.2.2 (e.2.2.headD []).length q a) (ro * X (some a)) fun r v => by
      rw [eqPoly_m1 h3 hcs _ _ _ _ _ _ (.inl rfl), map_mul, hro]; simp [point]
    rw [this, map_mul, hroA]
    simp [point]
  · have := lift (fun q => Lbm.Spec.vel e.2.2 (e.2.2.headD []).length q a * Lbm.Spec.vel e.2.2 (e.2.2.headD []).length q b)
      ((if a = b then C (1 / 3) * X none else 0) + ro * X (some a) * X (some b)) fun r v => by
      rw [eqPoly_m2 h3 hcs _ _ _ _ _ _ _ (.inr h5), map_add, map_mul, map_mul, hro]
      have hx : rhoOut comp r * (rhoIn comp r * (1 / 3) * Lbm.Spec.δ a b + 1 * (v a * v b)) =
          (rhoOut comp r * rhoIn comp r) * (1 / 3) * Lbm.Spec.δ a b + rhoOut comp r * v a * v b := by ring
      rw [hx, hio]
      by_cases hab : a = b <;> simp [hab, Lbm.Spec.δ, point] <;> ring
    rw [this, map_add, map_mul, map_mul, hroA]
    by_cases hab : a = b
    · simp only [if_pos hab, map_mul, aeval_C, aeval_X, Algebra.smul_def]; rfl
    · simp only [if_neg hab, map_zero, aeval_X]; rfl
  · have := lift (fun q => Lbm.Spec.vel e.2.2 (e.2.2.headD []).length q a * Lbm.Spec.vel e.2.2 (e.2.2.headD []).length q b *
        Lbm.Spec.vel e.2.2 (e.2.2.headD []).length q d)
      (C (1 / 3) * ((if b = d then ro * X (some a) else 0) + (if a = d then ro * X (some b) else 0) +
        (if a = b then ro * X (some d) else 0))) fun r v => by
      rw [Matching.eqPoly_m3 h5 hcs]
      have h1 : ∀ (p : Prop) [Decidable p] (x : MvPolynomial (Option (Fin (e.2.2.headD []).length)) K),
          eval (point r v) (if p then x else 0) = if p then eval (point r v) x else 0 := fun p _ x => by
        split_ifs <;> simp
      simp only [map_mul, map_add, h1, hro, eval_C, eval_X, Lbm.Spec.δ]
      simp only [point, Option.elim]
      simp only [mul_ite, mul_one, mul_zero, mul_add]
      split_ifs <;> ring
    rw [this]
    have h1 : ∀ (p : Prop) [Decidable p] (x : MvPolynomial (Option (Fin (e.2.2.headD []).length)) K),
        aeval (point rho u) (if p then x else 0) = if p then aeval (point rho u) x else 0 := fun p _ x => by
      split_ifs <;> simp
    simp only [map_mul, map_add, h1, hroA, aeval_C, aeval_X, Algebra.smul_def, map_zero, zero_mul, add_zero]
    rfl

/-- All rates are equal. -/
theorem stressRates_single {D Q : ℕ} (M : Matrix (Fin Q) (Fin Q) K) (hM : M.det ≠ 0) (ω : K) (c : Fin Q → Fin D → K) :
    StressRates M (fun _ => ω) c ω ω :=
  ⟨⟨ω, relaxes_single M hM ω _⟩, fun _ => ⟨ω, relaxes_single M hM ω _⟩, fun _ _ _ => relaxes_single M hM ω _,
    fun _ _ => relaxes_single M hM ω _, relaxes_single M hM ω _⟩

omit [CharZero K] in
/-- Even moments are combinations of the even rows of a matrix whose rows are even or odd. -/
theorem relaxes_parity (h2 : (2 : K) ≠ 0) {Q : ℕ} (M : Matrix (Fin Q) (Fin Q) K) (hM : M.det ≠ 0) (inv : Fin Q → Fin Q) (even : Fin Q → Bool)
    (hrow : ∀ i q, M i (inv q) = (if even i then 1 else -1) * M i q) (ωe ωo : K) (φ : Fin Q → K) (b : Bool)
    (hφ : ∀ q, φ (inv q) = (if b then 1 else -1) * φ q) :
    Relaxes M (fun i => if even i then ωe else ωo) φ (if b then ωe else ωo) := by
  have hu : IsUnit M.det := isUnit_iff_ne_zero.2 hM
  set a := φ ᵥ* M⁻¹ with ha
  have h1 : a ᵥ* M = φ := by rw [ha, vecMul_vecMul, nonsing_inv_mul M hu, vecMul_one]
  have h1' : ∀ q, φ q = ∑ i, a i * M i q := fun q => (congrFun h1 q).symm
  refine ⟨a, h1', fun i hi => ?_⟩
  have h3 : (fun i => (if b then 1 else -1) * (if even i then 1 else -1) * a i) ᵥ* M = φ := by
    funext q
    have e1 : φ q = (if b then 1 else -1) * φ (inv q) := by
      rw [hφ, ← mul_assoc]; cases b <;> simp
    rw [e1, h1' (inv q), Finset.mul_sum]
    simp only [vecMul, dotProduct, hrow]
    exact Finset.sum_congr rfl fun i _ => by ring
  have h4 : (fun i => (if b then 1 else -1) * (if even i then 1 else -1) * a i) = a := by
    have := congrArg (· ᵥ* M⁻¹) (h3.trans h1.symm)
    simpa only [vecMul_vecMul, mul_nonsing_inv M hu, vecMul_one] using this
  have h5 := congrFun h4 i
  have hne : ∀ x : K, x ≠ 0 → -x ≠ x := fun x hx h => hx (by
    have : 2 * x = 0 := by linear_combination -h
    exact (mul_eq_zero.1 this).resolve_left h2)
  cases hb : b <;> cases he : even i <;> simp [hb, he] at h5 ⊢
  · exact absurd h5 (hne _ hi)
  · exact absurd h5 (hne _ hi)

/-- C68. Two relaxation rates: only the rate of the even moments enters the stress. -/
theorem C68_two_rates {D Q : ℕ} (M : Matrix (Fin Q) (Fin Q) K) (hM : M.det ≠ 0) (inv : Fin Q → Fin Q) (even : Fin Q → Bool)
    (hrow : ∀ i q, M i (inv q) = (if even i then 1 else -1) * M i q) (c : Fin Q → Fin D → K)
    (hc : ∀ q a, c (inv q) a = -c q a) (ωe ωo : K) :
    StressRates M (fun i => if even i then ωe else ωo) c ωe ωe := by
  have h2 : (2 : K) ≠ 0 := two_ne_zero
  have E := fun φ hφ => relaxes_parity h2 M hM inv even hrow ωe ωo φ true hφ
  have O := fun φ hφ => relaxes_parity h2 M hM inv even hrow ωe ωo φ false hφ
  simp only [if_true, one_mul, Bool.false_eq_true, if_false, neg_mul] at E O
  exact ⟨⟨ωe, E _ fun _ => rfl⟩, fun a => ⟨ωo, O _ fun q => hc q a⟩, fun a b _ => E _ fun q => by rw [hc, hc]; ring,
    fun a b => E _ fun q => by rw [hc, hc]; ring, E _ fun q => by simp only [hc]; exact Finset.sum_congr rfl fun a _ => by ring⟩

/-- C68. Every predefined stencil with weights, except D3Q7, with one relaxation rate and the second-order compressible
equilibrium: the Navier–Stokes equations with the viscosity `(1/ω - 1/2) / 3` and the cubic error. -/
theorem C68_single_rate : ∀ e ∈ Tables.predefined, e.2.2.length ≠ 7 → ∀ P, IsEquilibrium (K := K) e.2.2 true P →
    ∀ (M : Matrix (Fin e.2.2.length) (Fin e.2.2.length) K), M.det ≠ 0 → ∀ (ω : K), ω ≠ 0 →
    ∀ (d : Derivatives K A (e.2.2.headD []).length) (f : ℕ → Fin e.2.2.length → A) (rho : A)
      (u : Fin (e.2.2.headD []).length → A), (∀ q, f 0 q = aeval (point rho u) (P q)) →
    Hierarchy d (Lbm.Spec.vel e.2.2 (e.2.2.headD []).length) M (fun _ => ω) f → ∀ ε : K,
    dt d ε rho + ∑ a, dx d ε a (rho * u a) = 0 ∧
      ∀ a, dt d ε (rho * u a) + ∑ b, dx d ε b (rho * u a * u b) + dx d ε a ((1 / 3 : K) • rho) =
        ((1 / ω - 1 / 2) / 3) • ∑ b, dx d ε b (rho * (dx d ε a (u b) + dx d ε b (u a))) -
        (1 / ω - 1 / 2) • ∑ b, dx d ε b (∑ k, dx d ε k (rho * u a * u b * u k)) := by
  intro e he h7 P hP M hM ω hω d f rho u hf h ε
  have hm := equilibrium_moments (A := A) e he h7 true P hP rho u
  have hf' : f 0 = fun q => aeval (point rho u) (P q) := funext hf
  rw [← hf'] at hm
  obtain ⟨k1, k2⟩ := C68_navier_stokes d _ M hM (fun _ => ω) f ω ω hω hω (stressRates_single M hM ω _) h rho u (1 / 3) 0
    hm ε
  refine ⟨k1, fun a => ?_⟩
  have hst : ∀ b, stress (1 / ω - 1 / 2) (1 / ω - 1 / 2) (strain d ε (1 / 3) 0 rho u) a b =
      -((1 / ω - 1 / 2) • ((1 / 3 : K) • (rho * (dx d ε a (u b) + dx d ε b (u a))) -
        ∑ k, dx d ε k (rho * u a * u b * u k))) := by
    intro b
    unfold stress strain
    rw [sub_zero, one_smul]
    module
  have := k2 a
  simp only [hst] at this
  have hd : ∀ b (x y : A), dx d ε b (-((1 / ω - 1 / 2) • ((1 / 3 : K) • x - y))) =
      -((1 / ω - 1 / 2) • ((1 / 3 : K) • dx d ε b x - dx d ε b y)) := fun b x y => by
    unfold dx
    rw [map_neg, Derivation.map_smul, map_sub, Derivation.map_smul]
    module
  simp only [hd, Finset.sum_neg_distrib, ← Finset.smul_sum, Finset.sum_sub_distrib] at this
  linear_combination (norm := module) this

end

section
variable {K A : Type} [Field K] [CharZero K] [CommRing A] [Algebra K A] {D Q : ℕ}
open Spec

/-- The populations of the hierarchy of a method with one rate. -/
def singleRate (d : Derivatives K A D) (c : Fin Q → Fin D → K) (ω : K) (g : Fin Q → A) : ℕ → Fin Q → A
  | 0 => g
  | 1 => fun q => -(1 / ω) • d1 d (c q) (g q)
  | _ => fun _ => 0

omit [CharZero K] in
theorem moment_zero (φ : Fin Q → K) : moment φ (fun _ => (0 : A)) = 0 := by simp [moment]

/-- These populations solve the equations, if the conservation laws hold. -/
theorem hierarchy_single (d : Derivatives K A D) (c : Fin Q → Fin D → K) (M : Matrix (Fin Q) (Fin Q) K) (hM : M.det ≠ 0)
    (ω : K) (hω : ω ≠ 0) (g : Fin Q → A)
    (e0 : moment (fun _ => (1 : K)) (fun q => d1 d (c q) (g q)) = 0)
    (e1 : ∀ a, moment (fun q => c q a) (fun q => d1 d (c q) (g q)) = 0)
    (n0 : d.t2 (moment (fun _ => (1 : K)) g) = 0)
    (n1 : ∀ a, d.t2 (moment (fun q => c q a) g) = ((1 - ω / 2) / ω) •
      ∑ b, d.x b (moment (fun q => c q a * c q b) (fun q => d1 d (c q) (g q)))) :
    Hierarchy d c M (fun _ => ω) (singleRate d c ω g) := by
  have h1 : ∀ φ : Fin Q → K, moment φ (singleRate d c ω g 1) = -(1 / ω) • moment φ (fun q => d1 d (c q) (g q)) := fun φ =>
    moment_smul φ _ _
  have F : ∀ φ, momentEquation d c M (fun _ => ω) (singleRate d c ω g) 1 φ = 0 := fun φ => by
    rw [momentEquation_one d c M hM _ _ φ ω (relaxes_single M hM ω φ), h1, ← C68_take_moments]
    have : singleRate d c ω g 0 = g := rfl
    rw [this, smul_smul, mul_neg, mul_one_div_cancel hω, neg_one_smul, add_neg_cancel]
  have S : ∀ φ, moment φ (fun q => d1 d (c q) (g q)) = 0 → d.t2 (moment φ g) = ((1 - ω / 2) / ω) •
      ∑ b, d.x b (moment (fun q => φ q * c q b) (fun q => d1 d (c q) (g q))) →
      momentEquation d c M (fun _ => ω) (singleRate d c ω g) 2 φ = 0 := fun φ hφ h2 => by
    rw [momentEquation_two d c M hM _ _ φ ω (relaxes_single M hM ω φ)]
    have hz : singleRate d c ω g 0 = g := rfl
    have h2' : singleRate d c ω g 2 = fun _ => 0 := rfl
    simp only [C68_moment_relaxes M hM _ _ ω (relaxes_single M hM ω _) 1, h1, hφ, hz, h2', moment_zero, h2, smul_zero,
      map_zero, pow_one, add_zero, zero_add, neg_zero, map_neg, Derivation.map_smul, Finset.sum_neg_distrib,
      ← Finset.smul_sum]
    match_scalars
    field_simp
    ring
  refine ⟨F _, fun _ => F _, fun _ _ => F _, S _ e0 ?_, fun a => S _ (e1 a) (n1 a), fun k hk => ?_, fun k hk a => ?_⟩
  · rw [n0]
    simp only [one_mul, e1, map_zero, Finset.sum_const_zero, smul_zero]
  · match k, hk with
    | 1, _ => have := h1 (fun _ => 1); rw [e0, smul_zero] at this; simpa [moment] using this
    | k + 2, _ => simp [singleRate]
  · match k, hk with
    | 1, _ => have := h1 (fun q => c q a); rw [e1, smul_zero] at this; exact this
    | k + 2, _ => simp [singleRate]

open Polynomial in
/-- A shear flow on D2Q9: `u = (y, 0)` and constant density; polynomials in `y` are the fields. -/
noncomputable def shearDerivatives (D : ℕ) : Derivatives ℚ ℚ[X] D where
  t1 := 0
  t2 := 0
  x a := if a.val = 1 then Polynomial.derivative' else 0

open Polynomial in
noncomputable def shearVelocity (D : ℕ) (a : Fin D) : ℚ[X] := if a.val = 0 then X else 0

open Polynomial in
theorem hierarchy_shear {D Q : ℕ} (c : Fin Q → Fin D → ℚ) (g : Fin Q → ℚ[X])
    (hm : EquilibriumMoments c g 1 1 (shearVelocity D) (1 / 3) 0) :
    Hierarchy (shearDerivatives D) c 1 (fun _ => 3 / 2) (singleRate (shearDerivatives D) c (3 / 2) g) := by
  obtain ⟨m0, m1, m2, m3⟩ := hm
  simp only [one_mul, zero_smul, add_zero] at m1 m2 m3
  have x0 : ∀ (b : Fin D) (r : ℚ[X]), r.derivative = 0 → (shearDerivatives D).x b r = 0 := fun b r hr => by
    unfold shearDerivatives
    simp only
    split_ifs
    · exact hr
    · rfl
  have hu1 : ∀ (b : Fin D) (r : ℚ[X]), (shearDerivatives D).x b (r * shearVelocity D b) = 0 := fun b r => by
    unfold shearDerivatives shearVelocity
    simp only
    split_ifs with h1 h2
    · omega
    · simp
    · rfl
    · rfl
  have hu2 : ∀ (a b e : Fin D), (shearDerivatives D).x b ((shearDerivatives D).x e (shearVelocity D a)) = 0 :=
    fun a b e => by
    refine x0 _ _ ?_
    unfold shearDerivatives shearVelocity
    simp only
    split_ifs <;> simp [Polynomial.derivative']
  have T : ∀ (φ : Fin Q → ℚ) (g : Fin Q → ℚ[X]),
      moment φ (fun q => d1 (shearDerivatives D) (c q) (g q)) =
        ∑ a, (shearDerivatives D).x a (moment (fun q => φ q * c q a) g) := fun φ g => by
    rw [C68_take_moments]
    exact zero_add _
  have hz : ∀ r : ℚ[X], (shearDerivatives D).t2 r = 0 := fun r => rfl
  refine hierarchy_single _ _ 1 (by simp) _ (by norm_num) _ ?_ ?_ ?_ ?_
  · rw [T]
    refine Finset.sum_eq_zero fun a _ => ?_
    have : moment (fun q => 1 * c q a) g = shearVelocity D a := by
      simp only [one_mul]; exact m1 a
    rw [this, ← one_mul (shearVelocity D a)]
    exact hu1 a 1
  · intro a
    rw [T]
    refine Finset.sum_eq_zero fun b _ => ?_
    have : moment (fun q => c q a * c q b) g = _ := m2 a b
    rw [this, map_add, hu1, add_zero]
    refine x0 _ _ ?_
    split_ifs <;> simp
  · exact hz _
  · intro a
    rw [hz]
    symm
    rw [Finset.sum_eq_zero, smul_zero]
    intro b _
    rw [T, map_sum]
    refine Finset.sum_eq_zero fun k _ => ?_
    have : moment (fun q => c q a * c q b * c q k) g = _ := m3 a b k
    rw [this, Derivation.map_smul, Derivation.map_smul, map_add, map_add, map_add, map_add]
    have hi : ∀ (p : Prop) [Decidable p] (i : Fin D), (shearDerivatives D).x b ((shearDerivatives D).x k
        (if p then shearVelocity D i else 0)) = 0 := fun p _ i => by
      split_ifs
      · exact hu2 _ _ _
      · simp
    rw [hi, hi, hi]
    simp

open Polynomial in
/-- The hypotheses of `C68_single_rate` hold for the shear flow on D2Q9. -/
example : ∃ e ∈ Tables.predefined, e.1 = "D2Q9" ∧ ∃ (P : _) (_ : IsEquilibrium (K := ℚ) e.2.2 true P)
    (f : ℕ → Fin e.2.2.length → ℚ[X]), (∀ q, f 0 q = MvPolynomial.aeval (point 1 (shearVelocity _)) (P q)) ∧
    Hierarchy (shearDerivatives _) (Lbm.Spec.vel e.2.2 (e.2.2.headD []).length) 1 (fun _ => (3 / 2 : ℚ)) f := by
  have he : (("D2Q9", "walberla", Tables.D2Q9_walberla) : String × String × List (List ℤ)) ∈ Tables.predefined := by
    decide +kernel
  refine ⟨_, he, rfl, ?_⟩
  obtain ⟨P, hP⟩ := exists_equilibrium (K := ℚ) _ he (by decide +kernel) true
  have hm := equilibrium_moments (A := ℚ[X]) _ he (by decide +kernel) true P hP 1 (shearVelocity _)
  exact ⟨P, hP, _, fun q => rfl, hierarchy_shear _ _ hm⟩

open Polynomial in
/-- The hypotheses of `C68_navier_stokes_incompressible` hold for it as well. -/
example : ∃ e ∈ Tables.predefined, e.1 = "D2Q9" ∧ ∃ f : ℕ → Fin e.2.2.length → ℚ[X],
    EquilibriumMoments (Lbm.Spec.vel e.2.2 (e.2.2.headD []).length) (f 0) 1 1 (shearVelocity _) (1 / 3 : ℚ) 0 ∧
    Hierarchy (shearDerivatives _) (Lbm.Spec.vel e.2.2 (e.2.2.headD []).length) 1 (fun _ => (3 / 2 : ℚ)) f ∧
    Spec.StressRates 1 (fun _ => (3 / 2 : ℚ)) (Lbm.Spec.vel e.2.2 (e.2.2.headD []).length) (3 / 2) (3 / 2) := by
  have he : (("D2Q9", "walberla", Tables.D2Q9_walberla) : String × String × List (List ℤ)) ∈ Tables.predefined := by
    decide +kernel
  refine ⟨_, he, rfl, ?_⟩
  obtain ⟨P, hP⟩ := exists_equilibrium (K := ℚ) _ he (by decide +kernel) true
  have hm := equilibrium_moments (A := ℚ[X]) _ he (by decide +kernel) true P hP 1 (shearVelocity _)
  exact ⟨_, hm, hierarchy_shear _ _ hm, stressRates_single _ (by simp) _ _⟩

end

/-! ### Viscosities -/

section
variable {K : Type} [Field K] {D : ℕ}
open MvPolynomial

theorem coeffOf_subset (p : MvPolynomial (Sym D) K) (s : Sym D) (T : Finset (Sym D →₀ ℕ)) (hT : p.support ⊆ T) :
    coeffOf p s = ∑ m ∈ T, if m s = 1 then monomial (m.erase s) (p.coeff m) else 0 := by
  unfold coeffOf
  rw [Finset.sum_filter]
  refine Finset.sum_subset hT fun m _ hm => ?_
  rw [notMem_support_iff.1 hm]
  simp

theorem coeffOf_add (p q : MvPolynomial (Sym D) K) (s : Sym D) : coeffOf (p + q) s = coeffOf p s + coeffOf q s := by
  classical
  rw [coeffOf_subset (p + q) s (p.support ∪ q.support) support_add,
    coeffOf_subset p s (p.support ∪ q.support) Finset.subset_union_left,
    coeffOf_subset q s (p.support ∪ q.support) Finset.subset_union_right, ← Finset.sum_add_distrib]
  refine Finset.sum_congr rfl fun m _ => ?_
  split_ifs
  · rw [coeff_add, map_add]
  · simp

theorem coeffOf_zero (s : Sym D) : coeffOf (0 : MvPolynomial (Sym D) K) s = 0 := by simp [coeffOf]

theorem coeffOf_monomial (m : Sym D →₀ ℕ) (k : K) (s : Sym D) :
    coeffOf (monomial m k) s = if m s = 1 then monomial (m.erase s) k else 0 := by
  classical
  rw [coeffOf_subset _ s {m} support_monomial_subset, Finset.sum_singleton, coeff_monomial, if_pos rfl]

theorem coeffOf_sum {ι : Type} (t : Finset ι) (p : ι → MvPolynomial (Sym D) K) (s : Sym D) :
    coeffOf (∑ i ∈ t, p i) s = ∑ i ∈ t, coeffOf (p i) s := by
  classical
  induction t using Finset.induction_on with
  | empty => simp [coeffOf_zero]
  | insert a t ha ih => rw [Finset.sum_insert ha, Finset.sum_insert ha, coeffOf_add, ih]

/-- The exponent of the density in front of the viscosity. -/
noncomputable def rhoPower (comp : Bool) : Sym D →₀ ℕ := if comp then Finsupp.single .rho 1 else 0

/-- The density in front of the viscosity: 1 in the incompressible case. -/
noncomputable def rhoFactor (comp : Bool) : MvPolynomial (Sym D) K := monomial (rhoPower comp) 1

/-- A linear form in the velocity gradient. -/
noncomputable def linForm (comp : Bool) (a : Fin D × Fin D → K) : MvPolynomial (Sym D) K :=
  ∑ ij, monomial (rhoPower comp + Finsupp.single (Sym.du ij.1 ij.2) 1) (a ij)

theorem rhoPower_du (comp : Bool) (i j : Fin D) : rhoPower comp (Sym.du i j) = 0 := by
  unfold rhoPower; split_ifs <;> simp

theorem single_du (ij kl : Fin D × Fin D) :
    (Finsupp.single (Sym.du ij.1 ij.2) 1 : Sym D →₀ ℕ) (Sym.du kl.1 kl.2) = if ij = kl then 1 else 0 := by
  rw [Finsupp.single_apply]
  by_cases h : ij = kl
  · subst h; simp
  · rw [if_neg h, if_neg]
    intro h2
    injection h2 with h3 h4
    exact h (Prod.ext h3 h4)

theorem monomial_eq (comp : Bool) (ij : Fin D × Fin D) (k : K) :
    monomial (rhoPower comp + Finsupp.single (Sym.du ij.1 ij.2) 1) k = rhoFactor comp * C k * X (Sym.du ij.1 ij.2) := by
  unfold rhoFactor
  rw [X, C_apply, monomial_mul, monomial_mul]
  simp

theorem linForm_eq (comp : Bool) (a : Fin D × Fin D → K) :
    linForm comp a = rhoFactor comp * ∑ ij : Fin D × Fin D, C (a ij) * X (Sym.du ij.1 ij.2) := by
  unfold linForm
  simp only [monomial_eq, Finset.mul_sum, mul_assoc]

theorem linForm_single (comp : Bool) (ij : Fin D × Fin D) (k : K) :
    rhoFactor comp * C k * X (Sym.du ij.1 ij.2) = linForm comp (Pi.single ij k) := by
  unfold linForm
  rw [Finset.sum_eq_single ij]
  · rw [Pi.single_eq_same, monomial_eq]
  · intro b _ hb; rw [Pi.single_eq_of_ne hb, monomial_zero]
  · simp

theorem linForm_add (comp : Bool) (a b : Fin D × Fin D → K) : linForm comp (a + b) = linForm comp a + linForm comp b := by
  simp [linForm, Finset.sum_add_distrib]

theorem coeffOf_linForm (comp : Bool) (a : Fin D × Fin D → K) (kl : Fin D × Fin D) :
    coeffOf (linForm comp a) (.du kl.1 kl.2) = rhoFactor comp * C (a kl) := by
  classical
  unfold linForm
  rw [coeffOf_sum, Finset.sum_eq_single kl]
  · rw [coeffOf_monomial, Finsupp.add_apply, rhoPower_du, single_du, if_pos rfl, if_pos rfl]
    unfold rhoFactor
    rw [C_apply, monomial_mul, add_zero, one_mul]
    congr 2
    ext s
    by_cases hs : s = Sym.du kl.1 kl.2
    · subst hs; rw [Finsupp.erase_same, rhoPower_du]
    · rw [Finsupp.erase_ne hs, Finsupp.add_apply, Finsupp.single_eq_of_ne hs, add_zero]
  · intro b _ hb
    rw [coeffOf_monomial, Finsupp.add_apply, rhoPower_du, single_du, if_neg hb, if_neg (by simp)]
  · simp

theorem rhoFactor_eq (comp : Bool) : (rhoFactor comp : MvPolynomial (Sym D) K) = if comp then X .rho else 1 := by
  unfold rhoFactor rhoPower
  cases comp <;> simp [X]

theorem rhoFactor_ne (comp : Bool) : (rhoFactor comp : MvPolynomial (Sym D) K) ≠ 0 := by
  rw [rhoFactor_eq]
  cases comp
  · simp
  · simp [X_ne_zero]

theorem coeff_linForm (comp : Bool) (a : Fin D × Fin D → K) (kl : Fin D × Fin D) :
    coeff (rhoPower comp + Finsupp.single (Sym.du kl.1 kl.2) 1) (linForm comp a) = a kl := by
  classical
  unfold linForm
  rw [coeff_sum, Finset.sum_eq_single kl]
  · rw [coeff_monomial, if_pos rfl]
  · intro b _ hb
    rw [coeff_monomial, if_neg]
    intro h
    have := DFunLike.congr_fun (add_left_cancel h) (Sym.du kl.1 kl.2)
    rw [single_du, single_du, if_neg hb, if_pos rfl] at this
    exact absurd this (by norm_num)
  · simp

theorem linForm_zero_iff (comp : Bool) (a : Fin D × Fin D → K) : linForm comp a = 0 ↔ a = 0 := by
  constructor
  · intro h
    funext kl
    rw [← coeff_linForm comp a kl, h]
    simp
  · rintro rfl; simp [linForm]

theorem setZero_linForm (comp : Bool) (a : Fin D × Fin D → K) (kl : Fin D × Fin D) :
    setZero (linForm comp a) (.du kl.1 kl.2) = linForm comp (fun ij => if ij = kl then 0 else a ij) := by
  unfold setZero
  rw [linForm_eq, linForm_eq, map_mul, map_sum]
  have hr : aeval (fun t => if t = Sym.du kl.1 kl.2 then (0 : MvPolynomial (Sym D) K) else X t)
      (rhoFactor comp : MvPolynomial (Sym D) K) = rhoFactor comp := by
    rw [rhoFactor_eq]; cases comp <;> simp
  rw [hr]
  congr 1
  refine Finset.sum_congr rfl fun ij _ => ?_
  rw [map_mul, aeval_X, aeval_C]
  by_cases h : ij = kl
  · subst h; simp
  · rw [if_neg h, if_neg]
    · rfl
    · intro h2
      injection h2 with h3 h4
      exact h (Prod.ext h3 h4)

theorem foldl_setZero (comp : Bool) (l : List (Fin D × Fin D)) (a : Fin D × Fin D → K) :
    l.foldl (fun p ij => setZero p (.du ij.1 ij.2)) (linForm comp a) =
      linForm comp (fun ij => if ij ∈ l then 0 else a ij) := by
  classical
  induction l generalizing a with
  | nil => simp
  | cons kl l ih =>
    rw [List.foldl_cons, setZero_linForm, ih]
    congr 1
    funext ij
    by_cases h1 : ij ∈ l
    · simp [h1]
    · by_cases h2 : ij = kl <;> simp [h1, h2]

theorem mem_diffAtoms (comp : Bool) (a : Fin D × Fin D → K) (kl : Fin D × Fin D) :
    kl ∈ diffAtoms (linForm comp a) ↔ a kl ≠ 0 := by
  classical
  unfold diffAtoms
  rw [Finset.mem_filter, mem_vars]
  constructor
  · rintro ⟨-, m, hm, hs⟩
    rw [mem_support_iff] at hm
    intro h0
    apply hm
    unfold linForm
    rw [coeff_sum]
    refine Finset.sum_eq_zero fun ij _ => ?_
    rw [coeff_monomial]
    split_ifs with h
    · by_cases hij : ij = kl
      · rw [hij, h0]
      · exfalso
        rw [Finsupp.mem_support_iff, ← h, Finsupp.add_apply, rhoPower_du, single_du, if_neg hij] at hs
        exact hs rfl
    · rfl
  · intro h
    refine ⟨Finset.mem_univ _, rhoPower comp + Finsupp.single (Sym.du kl.1 kl.2) 1, ?_, ?_⟩
    · rw [mem_support_iff, coeff_linForm]; exact h
    · rw [Finsupp.mem_support_iff, Finsupp.add_apply, rhoPower_du, single_du, if_pos rfl]; norm_num

end

section
variable {K : Type} [Field K] {D : ℕ}
open MvPolynomial

namespace Spec

/-- The coefficient of `Diff(u_k, l)` in the entry `i j` of the stress of a Newtonian fluid,
`-μ (d_j u_i + d_i u_j) + λ δ_ij div u`. -/
def newtonian (μ l : K) (i j : Fin D) (kl : Fin D × Fin D) : K :=
  -μ * ((if kl = (i, j) then 1 else 0) + (if kl = (j, i) then 1 else 0)) + (if i = j ∧ kl.1 = kl.2 then l else 0)

/-- The stress tensor of a Newtonian fluid, as polynomial. -/
noncomputable def newtonianStress (comp : Bool) (μ l : K) (i j : Fin D) : MvPolynomial (Sym D) K :=
  rhoFactor comp * (-C μ * (X (.du i j) + X (.du j i)) + if i = j then C l * ∑ k, X (.du k k) else 0)

end Spec

open Spec

theorem newtonian_linForm (comp : Bool) (μ l : K) (i j : Fin D) :
    newtonianStress comp μ l i j = linForm comp (newtonian μ l i j) := by
  classical
  unfold newtonianStress
  rw [linForm_eq]
  congr 1
  have h1 : ∀ ij : Fin D × Fin D, ∀ k : K, ∑ kl : Fin D × Fin D, C (k * if kl = ij then 1 else 0) * X (Sym.du kl.1 kl.2) =
      (C k * X (Sym.du ij.1 ij.2) : MvPolynomial (Sym D) K) := fun ij k => by
    rw [Finset.sum_eq_single ij]
    · simp
    · intro b _ hb; simp [hb]
    · simp
  have h2 : ∑ kl : Fin D × Fin D, C (if kl.1 = kl.2 then l else 0) * X (Sym.du kl.1 kl.2) =
      (C l * ∑ k, X (.du k k) : MvPolynomial (Sym D) K) := by
    rw [Fintype.sum_prod_type, Finset.mul_sum]
    refine Finset.sum_congr rfl fun a _ => ?_
    rw [Finset.sum_eq_single a]
    · simp
    · intro b _ hb; simp [Ne.symm hb]
    · simp
  have h3 : ∀ kl : Fin D × Fin D, C (newtonian μ l i j kl) * X (Sym.du kl.1 kl.2) =
      (C (-μ * if kl = (i, j) then 1 else 0) * X (Sym.du kl.1 kl.2) +
      C (-μ * if kl = (j, i) then 1 else 0) * X (Sym.du kl.1 kl.2) +
      (if i = j then C (if kl.1 = kl.2 then l else 0) * X (Sym.du kl.1 kl.2) else 0) : MvPolynomial (Sym D) K) := by
    intro kl
    unfold newtonian
    rw [mul_add, map_add, map_add, add_mul, add_mul]
    congr 1
    by_cases h : i = j <;> simp [h]
  simp only [h3, Finset.sum_add_distrib, h1]
  by_cases h : i = j
  · simp only [h, if_true, h2, map_neg]; ring
  · simp only [h, if_false, Finset.sum_const_zero, map_neg]; ring

theorem onlyElement_singleton {α : Type} (x : α) : onlyElement {x} = .ok x := by
  unfold onlyElement
  have h : ∃ y, ({x} : Finset α) = {y} := ⟨x, rfl⟩
  rw [dif_pos h]
  have := h.choose_spec
  rw [Finset.singleton_inj] at this
  rw [← this]

theorem toRatio_ne {p : MvPolynomial (Sym D) K} (h : p ≠ 0) : toRatio p ≠ 0 := by
  unfold toRatio
  exact (map_ne_zero_iff _ (IsFractionRing.injective _ _)).2 h

theorem du_sum_ne (i j : Fin D) (h : i ≠ j) : (X (.du i j) + X (.du j i) : MvPolynomial (Sym D) K) ≠ 0 := by
  classical
  intro h0
  have := congrArg (coeff (Finsupp.single (Sym.du i j) 1)) h0
  have hne : Sym.du j i ≠ Sym.du i j := fun h3 => by injection h3 with h4 h5; exact h h4.symm
  have h1 : coeff (Finsupp.single (Sym.du i j) 1) (X (Sym.du j i) : MvPolynomial (Sym D) K) = 0 := by
    rw [coeff_X', if_neg]
    intro h2
    rcases (Finsupp.single_eq_single_iff _ _ _ _).1 h2 with ⟨h3, -⟩ | ⟨h3, -⟩
    · exact hne h3
    · exact one_ne_zero h3
  rw [coeff_add, h1, coeff_X', if_pos rfl, coeff_zero, add_zero] at this
  exact one_ne_zero this

/-- C68. Of a Newtonian stress the dynamic viscosity is found. -/
theorem C68_dynamic_viscosity (comp : Bool) (μ l : K) :
    dynamicViscosity (newtonianStress (D := D + 2) comp μ l) = .ok (toRatio (C μ * rhoFactor comp)) := by
  classical
  have h : shearCandidates (newtonianStress (D := D + 2) comp μ l) = {toRatio (C μ * rhoFactor comp)} := by
    unfold shearCandidates
    ext x
    simp only [Finset.mem_image, Finset.mem_filter, Finset.mem_univ, true_and, Finset.mem_singleton]
    have key : ∀ p : Fin (D + 2) × Fin (D + 2), p.1 < p.2 → -(toRatio (newtonianStress comp μ l p.1 p.2) /
        toRatio (X (.du p.1 p.2) + X (.du p.2 p.1))) = toRatio (C μ * rhoFactor comp) := by
      intro p hp
      have hne := toRatio_ne (du_sum_ne (K := K) p.1 p.2 (ne_of_lt hp))
      rw [← neg_div, div_eq_iff hne]
      unfold newtonianStress
      rw [if_neg (ne_of_lt hp)]
      unfold toRatio
      rw [← map_neg, ← map_mul]
      congr 1
      ring
    constructor
    · rintro ⟨p, hp, rfl⟩; exact key p hp
    · rintro rfl
      exact ⟨(0, 1), by simp [Fin.lt_def], key (0, 1) (by simp [Fin.lt_def])⟩
  unfold dynamicViscosity
  rw [h, onlyElement_singleton]

/-- C68. The kinematic viscosity does not contain the density. -/
theorem C68_kinematic_viscosity (comp : Bool) (μ l : K) :
    kinematicViscosity comp (newtonianStress (D := D + 2) comp μ l) = .ok (toRatio (C μ)) := by
  unfold kinematicViscosity
  rw [C68_dynamic_viscosity]
  simp only [Except.map]
  cases comp with
  | false => simp [rhoFactor_eq]
  | true =>
    simp only [if_true]
    congr 1
    have hne := toRatio_ne (X_ne_zero (R := K) (Sym.rho (D := D + 2)))
    rw [div_eq_iff hne, rhoFactor_eq]
    simp [toRatio]

example : kinematicViscosity true (newtonianStress (D := 3) true (1 / 6 : ℚ) 0) = .ok (toRatio (C (1 / 6))) :=
  C68_kinematic_viscosity (D := 1) true (1 / 6) 0

theorem bulkTerm_newtonian (comp : Bool) (μ l : K) (i : Fin D) :
    bulkTerm (newtonianStress comp μ l) (C μ * rhoFactor comp) i =
      linForm comp (fun kl => if kl.1 = kl.2 then l else 0) := by
  have h : linForm comp (fun kl : Fin D × Fin D => if kl.1 = kl.2 then l else 0) =
      rhoFactor comp * (C l * ∑ k, X (.du k k)) := by
    rw [linForm_eq]
    congr 1
    rw [Fintype.sum_prod_type, Finset.mul_sum]
    refine Finset.sum_congr rfl fun a _ => ?_
    rw [Finset.sum_eq_single a]
    · simp
    · intro b _ hb; simp [Ne.symm hb]
    · simp
  rw [h]
  unfold bulkTerm newtonianStress
  rw [if_pos rfl]
  ring

theorem bulkCandidates_linForm (comp : Bool) (s : Fin D → Fin D → MvPolynomial (Sym D) K) (v : MvPolynomial (Sym D) K)
    (a : Fin D → Fin D × Fin D → K) (h : ∀ i, bulkTerm s v i = linForm comp (a i)) (p : MvPolynomial (Sym D) K) :
    p ∈ bulkCandidates s v ↔ (∃ i kl, a i kl ≠ 0 ∧ p = rhoFactor comp * C (a i kl)) ∨ ((∀ i kl, a i kl = 0) ∧ p = 0) := by
  classical
  unfold bulkCandidates
  have hz : ∀ i, (diffAtoms (bulkTerm s v i)).toList.foldl (fun p ij => setZero p (.du ij.1 ij.2)) (bulkTerm s v i) = 0 := by
    intro i
    rw [h, foldl_setZero, linForm_zero_iff]
    funext kl
    simp only [Finset.mem_toList, mem_diffAtoms, Pi.zero_apply]
    by_cases h0 : a i kl = 0 <;> simp [h0]
  rw [if_pos hz]
  set result := Finset.univ.biUnion fun i : Fin D =>
    (diffAtoms (bulkTerm s v i)).image fun ij => coeffOf (bulkTerm s v i) (.du ij.1 ij.2) with hr
  have hm : ∀ p, p ∈ result ↔ ∃ i kl, a i kl ≠ 0 ∧ p = rhoFactor comp * C (a i kl) := by
    intro p
    simp only [hr, Finset.mem_biUnion, Finset.mem_univ, true_and, Finset.mem_image, h, mem_diffAtoms, coeffOf_linForm]
    constructor
    · rintro ⟨i, kl, h1, rfl⟩; exact ⟨i, kl, h1, rfl⟩
    · rintro ⟨i, kl, h1, rfl⟩; exact ⟨i, kl, h1, rfl⟩
  by_cases hc : result.card = 0
  · rw [if_pos hc]
    rw [Finset.card_eq_zero] at hc
    have hall : ∀ i kl, a i kl = 0 := by
      intro i kl
      by_contra hne
      have := (hm _).2 ⟨i, kl, hne, rfl⟩
      rw [hc] at this
      simp at this
    simp only [Finset.mem_singleton]
    constructor
    · intro hp; exact .inr ⟨hall, hp⟩
    · rintro (⟨i, kl, hne, -⟩ | ⟨-, hp⟩)
      · exact absurd (hall i kl) hne
      · exact hp
  · rw [if_neg hc, hm]
    constructor
    · exact .inl
    · rintro (hp | ⟨hall, -⟩)
      · exact hp
      · exfalso
        apply hc
        rw [Finset.card_eq_zero, Finset.eq_empty_iff_forall_notMem]
        intro q hq
        obtain ⟨i, kl, hne, -⟩ := (hm q).1 hq
        exact hne (hall i kl)

theorem bulkCandidates_newtonian (comp : Bool) (μ l : K) :
    bulkCandidates (newtonianStress (D := D + 1) comp μ l) (C μ * rhoFactor comp) = {rhoFactor comp * C l} := by
  ext p
  rw [bulkCandidates_linForm comp _ _ (fun _ kl => if kl.1 = kl.2 then l else 0) (bulkTerm_newtonian comp μ l),
    Finset.mem_singleton]
  constructor
  · rintro (⟨i, kl, hne, rfl⟩ | ⟨hall, rfl⟩)
    · have : kl.1 = kl.2 := by by_contra h; simp [h] at hne
      rw [if_pos this]
    · have := hall 0 (0, 0)
      simp only [if_true] at this
      rw [this]; simp
  · rintro rfl
    by_cases hl : l = 0
    · exact .inr ⟨fun i kl => by simp [hl], by simp [hl]⟩
    · exact .inl ⟨0, (0, 0), by simpa using hl, by simp⟩

/-- C68. `get_bulk_viscosity` of a Newtonian stress. -/
theorem C68_bulk_viscosity_value (comp : Bool) (μ l : K) :
    bulkViscosity (newtonianStress (D := D + 1) comp μ l) (C μ * rhoFactor comp) =
      .ok (rhoFactor comp * C (l + 2 / 3 * μ)) := by
  unfold bulkViscosity
  rw [bulkCandidates_newtonian, onlyElement_singleton]
  simp only [Except.map]
  congr 1
  rw [map_add, map_mul]
  ring

/-- C68, disagreement: `get_bulk_viscosity` adds where it has to subtract.  In a fluid with shear viscosity `μ` and bulk
viscosity `ζ`, stress `-μ (d_j u_i + d_i u_j - 2/3 δ div u) - ζ δ div u`, it returns `4/3 μ - ζ`, the bulk viscosity only if
that is `2/3 μ` (one relaxation rate). -/
theorem C68_bulk_viscosity_wrong [CharZero K] (comp : Bool) (μ ζ : K) :
    bulkViscosity (newtonianStress (D := 3) comp μ (2 / 3 * μ - ζ)) (C μ * rhoFactor comp) =
      .ok (rhoFactor comp * C (4 / 3 * μ - ζ)) ∧
    (bulkViscosity (newtonianStress (D := 3) comp μ (2 / 3 * μ - ζ)) (C μ * rhoFactor comp) = .ok (rhoFactor comp * C ζ) ↔
      ζ = 2 / 3 * μ) := by
  have h := C68_bulk_viscosity_value (D := 2) comp μ (2 / 3 * μ - ζ)
  have e : (2 / 3 * μ - ζ + 2 / 3 * μ : K) = 4 / 3 * μ - ζ := by ring
  rw [e] at h
  refine ⟨h, ?_⟩
  rw [h]
  constructor
  · intro hh
    have h1 := mul_left_cancel₀ (rhoFactor_ne comp) (Except.ok.inj hh)
    have h2 := C_injective _ _ h1
    linear_combination -(1 / 2) * h2
  · rintro rfl
    congr 3
    ring

example : bulkViscosity (newtonianStress (D := 3) true (1 : ℚ) (2 / 3 * 1 - 1 / 3)) (C 1 * rhoFactor true) =
    .ok (rhoFactor true * C (4 / 3 * 1 - 1 / 3)) := (C68_bulk_viscosity_wrong (K := ℚ) true 1 (1 / 3)).1

end

section
variable {K : Type} [Field K] {D : ℕ}
open MvPolynomial Spec

theorem toList_pairwise {α : Type} [Zero α] [Sub α] (s : Finset α) (hsub : ∀ a b : α, a - b = 0 ↔ a = b) :
    (∀ b ∈ s.toList.tail, s.toList.headD 0 - b = 0) ↔ ∀ a ∈ s, ∀ b ∈ s, a = b := by
  have hm : ∀ a, a ∈ s ↔ a ∈ s.toList := fun a => Finset.mem_toList.symm
  simp only [hm]
  cases s.toList with
  | nil => simp
  | cons x l =>
    simp only [List.tail_cons, List.headD_cons, hsub, List.mem_cons, forall_eq_or_imp, true_and]
    constructor
    · intro h
      refine ⟨h, fun a ha => ⟨(h a ha).symm, fun b hb => (h a ha).symm.trans (h b hb)⟩⟩
    · intro h; exact h.1

/-- C68. What `does_approximate_navier_stokes` tests of a stress tensor that is linear in the velocity gradient:  the same
coefficient of `Diff(u_i, j)` in all entries beside the diagonal, no other derivatives there than `Diff(u_i, j)` and
`Diff(u_j, i)`, and that the derivatives which are left on the diagonal have the same coefficient. -/
theorem C68_conditions (comp : Bool) (a : Fin (D + 2) → Fin (D + 2) → Fin (D + 2) × Fin (D + 2) → K) :
    nsConditions (fun i j => linForm comp (a i j)) ⊆ {0} ↔
      (∀ i j, i < j → a i j (i, j) = a 0 1 (0, 1)) ∧
      (∀ i j, i < j → ∀ kl, kl ≠ (i, j) → kl ≠ (j, i) → a i j kl = 0) ∧
      (∀ i kl i' kl', a i i kl - 2 * a 0 1 (0, 1) * (if kl = (i, i) then 1 else 0) ≠ 0 →
        a i' i' kl' - 2 * a 0 1 (0, 1) * (if kl' = (i', i') then 1 else 0) ≠ 0 →
        a i i kl - 2 * a 0 1 (0, 1) * (if kl = (i, i) then 1 else 0) =
          a i' i' kl' - 2 * a 0 1 (0, 1) * (if kl' = (i', i') then 1 else 0)) := by
  classical
  set s : Fin (D + 2) → Fin (D + 2) → MvPolynomial (Sym (D + 2)) K := fun i j => linForm comp (a i j) with hs
  have href : coeffOf (s 0 1) (.du 0 1) = rhoFactor comp * C (a 0 1 (0, 1)) := coeffOf_linForm comp (a 0 1) (0, 1)
  have hcross : ∀ i j, setZero (setZero (s i j) (.du i j)) (.du j i) =
      linForm comp (fun kl => if kl = (j, i) then 0 else if kl = (i, j) then 0 else a i j kl) := by
    intro i j
    simp only [hs]
    have h1 := setZero_linForm comp (a i j) (i, j)
    simp only at h1
    rw [h1]
    exact setZero_linForm comp _ (j, i)
  have hfold : ∀ b : Fin (D + 2) × Fin (D + 2) → K,
      (List.finRange (D + 2)).foldl (fun p k => setZero p (.du k k)) (linForm comp b) =
        linForm comp (fun kl => if kl.1 = kl.2 then 0 else b kl) := by
    intro b
    have h1 := foldl_setZero comp ((List.finRange (D + 2)).map fun k => (k, k)) b
    rw [List.foldl_map] at h1
    rw [h1]
    congr 1
    funext kl
    obtain ⟨k, l⟩ := kl
    by_cases h : k = l
    · simp [h]
    · rw [if_neg, if_neg h]
      simp only [List.mem_map, List.mem_finRange, true_and, Prod.mk.injEq, not_exists, not_and]
      intro x hx; rw [hx]; exact h
  have hmul : ∀ k : K, rhoFactor comp * C k = (0 : MvPolynomial (Sym (D + 2)) K) ↔ k = 0 := by
    intro k
    rw [mul_eq_zero, or_iff_right (rhoFactor_ne comp), map_eq_zero_iff _ (C_injective _ _)]
  have hbulk : ∀ i, bulkTerm s (-(rhoFactor comp * C (a 0 1 (0, 1)))) i =
      linForm comp (fun kl => a i i kl - 2 * a 0 1 (0, 1) * (if kl = (i, i) then 1 else 0)) := by
    intro i
    have h1 : (fun kl => a i i kl - 2 * a 0 1 (0, 1) * (if kl = (i, i) then 1 else 0)) =
        a i i + Pi.single (i, i) (-2 * a 0 1 (0, 1)) := by
      funext kl
      rw [Pi.add_apply, Pi.single_apply]
      split_ifs <;> ring
    rw [h1, linForm_add, ← linForm_single]
    unfold bulkTerm
    simp only [hs]
    rw [map_mul, map_neg]
    simp only [map_ofNat]
    ring
  have hb := bulkCandidates_linForm comp s (-(rhoFactor comp * C (a 0 1 (0, 1)))) _ hbulk
  have hpair : (∀ b ∈ (bulkCandidates s (-(rhoFactor comp * C (a 0 1 (0, 1))))).toList.tail,
      (bulkCandidates s (-(rhoFactor comp * C (a 0 1 (0, 1))))).toList.headD 0 - b = 0) ↔
      (∀ i kl i' kl', a i i kl - 2 * a 0 1 (0, 1) * (if kl = (i, i) then 1 else 0) ≠ 0 →
        a i' i' kl' - 2 * a 0 1 (0, 1) * (if kl' = (i', i') then 1 else 0) ≠ 0 →
        a i i kl - 2 * a 0 1 (0, 1) * (if kl = (i, i) then 1 else 0) =
          a i' i' kl' - 2 * a 0 1 (0, 1) * (if kl' = (i', i') then 1 else 0)) := by
    rw [toList_pairwise _ fun a b => sub_eq_zero]
    constructor
    · intro h i kl i' kl' h1 h2
      have h3 := h _ ((hb _).2 (.inl ⟨i, kl, h1, rfl⟩)) _ ((hb _).2 (.inl ⟨i', kl', h2, rfl⟩))
      exact C_injective _ _ (mul_left_cancel₀ (rhoFactor_ne comp) h3)
    · intro h x hx y hy
      rcases (hb x).1 hx with ⟨i, kl, h1, rfl⟩ | ⟨h1, rfl⟩
      · rcases (hb y).1 hy with ⟨i', kl', h2, rfl⟩ | ⟨h2, rfl⟩
        · rw [h i kl i' kl' h1 h2]
        · exact absurd (h2 i kl) h1
      · rcases (hb y).1 hy with ⟨i', kl', h2, rfl⟩ | ⟨h2, rfl⟩
        · exact absurd (h1 i' kl') h2
        · rfl
  constructor
  · intro h
    unfold nsConditions at h
    simp only [href, hcross, hfold, Set.union_subset_iff] at h
    obtain ⟨⟨⟨⟨-, h1⟩, h2⟩, h3⟩, h4⟩ := h
    refine ⟨?_, ?_, ?_⟩
    · intro i j hij
      have := h1 ⟨i, j, hij, rfl⟩
      rw [Set.mem_singleton_iff] at this
      have hc := coeffOf_linForm comp (a i j) (i, j)
      simp only at hc
      simp only [hs, hc] at this
      rw [← mul_sub, ← map_sub, hmul] at this
      exact sub_eq_zero.1 this
    · intro i j hij kl hk1 hk2
      by_cases hd : kl.1 = kl.2
      · have := h2 ⟨i, j, kl.1, hij, rfl⟩
        rw [Set.mem_singleton_iff] at this
        have hc := coeffOf_linForm comp (fun kl => if kl = (j, i) then 0 else if kl = (i, j) then 0 else a i j kl) (kl.1, kl.1)
        simp only at hc
        rw [hc, hmul] at this
        have hkk : (kl.1, kl.1) = kl := Prod.ext rfl hd
        rw [hkk, if_neg hk2, if_neg hk1] at this
        exact this
      · have := h3 ⟨i, j, hij, rfl⟩
        rw [Set.mem_singleton_iff, linForm_zero_iff] at this
        have := congrFun this kl
        simp only [Pi.zero_apply] at this
        rw [if_neg hd, if_neg hk2, if_neg hk1] at this
        exact this
    · refine hpair.1 fun b hbm => ?_
      exact h4 ⟨b, hbm, rfl⟩
  · rintro ⟨h1, h2, h3⟩
    unfold nsConditions
    simp only [href, hcross, hfold]
    rintro e ((((he | ⟨i, j, hij, rfl⟩) | ⟨i, j, k, hij, rfl⟩) | ⟨i, j, hij, rfl⟩) | ⟨b, hbm, rfl⟩)
    · exact he
    · rw [Set.mem_singleton_iff]
      have hc := coeffOf_linForm comp (a i j) (i, j)
      simp only at hc
      simp only [hs, hc]
      rw [h1 i j hij, sub_self]
    · rw [Set.mem_singleton_iff]
      have hc := coeffOf_linForm comp (fun kl => if kl = (j, i) then 0 else if kl = (i, j) then 0 else a i j kl) (k, k)
      simp only at hc
      rw [hc, hmul]
      by_cases e1 : ((k, k) : Fin (D + 2) × Fin (D + 2)) = (j, i)
      · rw [if_pos e1]
      · by_cases e2 : ((k, k) : Fin (D + 2) × Fin (D + 2)) = (i, j)
        · rw [if_neg e1, if_pos e2]
        · rw [if_neg e1, if_neg e2]; exact h2 i j hij _ e2 e1
    · rw [Set.mem_singleton_iff, linForm_zero_iff]
      funext kl
      simp only [Pi.zero_apply]
      split_ifs with e1 e2 e3
      · rfl
      · rfl
      · rfl
      · exact h2 i j hij kl e3 e2
    · exact hpair.2 h3 b hbm

/-- C68. A Newtonian stress meets the conditions of `does_approximate_navier_stokes`. -/
theorem C68_newtonian_conditions (comp : Bool) (μ l : K) :
    nsConditions (newtonianStress (D := D + 2) comp μ l) = {0} := by
  have h : newtonianStress (D := D + 2) comp μ l = fun i j => linForm comp (newtonian μ l i j) := by
    funext i j; exact newtonian_linForm comp μ l i j
  apply Set.Subset.antisymm
  · rw [h]
    refine (C68_conditions comp _).2 ⟨?_, ?_, ?_⟩
    · intro i j hij
      have h1 : ((i, j) : Fin (D + 2) × Fin (D + 2)) ≠ (j, i) := by
        intro e; rw [Prod.mk.injEq] at e; exact (ne_of_lt hij) e.1
      simp [newtonian, h1, ne_of_lt hij]
    · intro i j hij kl h1 h2
      simp [newtonian, h1, h2, ne_of_lt hij]
    · intro i kl i' kl' h1 h2
      have key : ∀ (i : Fin (D + 2)) (kl : Fin (D + 2) × Fin (D + 2)),
          newtonian μ l i i kl - 2 * newtonian μ l (0 : Fin (D + 2)) 1 (0, 1) * (if kl = (i, i) then 1 else 0) = if kl.1 = kl.2 then l else 0 := by
        intro i kl
        have h01 : newtonian μ l (0 : Fin (D + 2)) 1 (0, 1) = -μ := by simp [newtonian]
        rw [h01]
        simp only [newtonian, true_and]
        split_ifs <;> ring
      rw [key] at h1 h2
      rw [key, key]
      have e1 : kl.1 = kl.2 := by by_contra h; simp [h] at h1
      have e2 : kl'.1 = kl'.2 := by by_contra h; simp [h] at h2
      rw [if_pos e1, if_pos e2]
  · intro e he
    unfold nsConditions
    exact .inl (.inl (.inl (.inl he)))

/-- The coefficients of the stress of a method whose two second-order relaxation rates differ between the moments `x_i²`
and `x_i x_j`. -/
def anisotropic (κ₁ κ₂ : K) (i j : Fin D) (kl : Fin D × Fin D) : K :=
  if i = j then (if kl = (i, i) then -2 * κ₁ else 0) else (if kl = (i, j) ∨ kl = (j, i) then -κ₂ else 0)

/-- C68, disagreement: `does_approximate_navier_stokes` finds no fault in a stress that is not that of a Newtonian fluid:
coefficients that vanish are not compared with the others. -/
theorem C68_conditions_incomplete (comp : Bool) (κ₁ κ₂ : K) (h : κ₁ ≠ κ₂) (h2 : (2 : K) ≠ 0) :
    nsConditions (fun i j => linForm comp (anisotropic (D := D + 2) κ₁ κ₂ i j)) = {0} ∧
      ¬ ∃ μ l, (fun i j => linForm comp (anisotropic (D := D + 2) κ₁ κ₂ i j)) = newtonianStress comp μ l := by
  constructor
  · apply Set.Subset.antisymm
    · refine (C68_conditions comp _).2 ⟨?_, ?_, ?_⟩
      · intro i j hij
        simp [anisotropic, ne_of_lt hij]
      · intro i j hij kl h1 h2
        simp [anisotropic, h1, h2, ne_of_lt hij]
      · intro i kl i' kl' h1 h2
        have key : ∀ (i : Fin (D + 2)) (kl : Fin (D + 2) × Fin (D + 2)),
            anisotropic κ₁ κ₂ i i kl - 2 * anisotropic κ₁ κ₂ (0 : Fin (D + 2)) 1 (0, 1) * (if kl = (i, i) then 1 else 0) =
              if kl = (i, i) then 2 * (κ₂ - κ₁) else 0 := by
          intro i kl
          have h01 : anisotropic κ₁ κ₂ (0 : Fin (D + 2)) 1 (0, 1) = -κ₂ := by simp [anisotropic]
          rw [h01]
          simp only [anisotropic, if_true]
          split_ifs <;> ring
        rw [key] at h1 h2
        rw [key, key]
        have e1 : kl = (i, i) := by by_contra h; simp [h] at h1
        have e2 : kl' = (i', i') := by by_contra h; simp [h] at h2
        rw [if_pos e1, if_pos e2]
    · intro e he
      unfold nsConditions
      exact .inl (.inl (.inl (.inl he)))
  · rintro ⟨μ, l, he⟩
    have hco : ∀ (i j : Fin (D + 2)) kl, anisotropic κ₁ κ₂ i j kl = newtonian μ l i j kl := by
      intro i j kl
      have h1 := congrFun (congrFun he i) j
      rw [newtonian_linForm] at h1
      rw [← coeff_linForm comp (anisotropic κ₁ κ₂ i j) kl, h1, coeff_linForm]
    have a1 := hco 0 0 (0, 0)
    have a2 := hco 0 1 (0, 1)
    have a3 := hco 0 0 (1, 1)
    simp [anisotropic, newtonian] at a1 a2 a3
    apply h
    apply mul_left_cancel₀ h2
    rw [← a3] at a1
    linear_combination -a1 - 2 * a2

example : nsConditions (fun i j => linForm true (anisotropic (D := 2) (1 / 3 : ℚ) (1 / 6) i j)) = {0} :=
  (C68_conditions_incomplete (D := 0) true (1 / 3 : ℚ) (1 / 6) (by norm_num) (by norm_num)).1

end

section
variable {K A : Type} [Field K] [CommRing A] [Algebra K A] {D : ℕ}
open MvPolynomial Spec

namespace Spec

/-- `k` times an expanded expression. -/
def scale (k : K) (e : Expanded K D) : Expanded K D := e.map fun p => (k * p.1, p.2)

/-- The expanded entries of the tensor `strain`. -/
def strainTerms (cs θ : K) (a b : Fin D) : Expanded K D :=
  [(cs, [.rho, .du b a]), (cs, [.rho, .du a b])] ++ (List.finRange D).flatMap fun e =>
    [(-(1 - θ), [.drho e, .u a, .u b, .u e]), (-(1 - θ), [.rho, .du a e, .u b, .u e]),
      (-(1 - θ), [.rho, .u a, .du b e, .u e]), (-(1 - θ), [.rho, .u a, .u b, .du e e])]

/-- The expanded entries of the tensor `strainIncompressible`. -/
def strainTermsIncompressible (cs θ : K) (a b : Fin D) : Expanded K D :=
  [(cs, [.du b a]), (cs, [.du a b]), (-cs, [.u b, .drho a]), (-cs, [.u a, .drho b])] ++ (List.finRange D).flatMap fun e =>
    [(-1, [.u b, .du a e, .u e]), (-1, [.u b, .u a, .du e e]), (-1, [.u a, .du b e, .u e]), (-1, [.u a, .u b, .du e e]),
      (θ, [.du a e, .u b, .u e]), (θ, [.u a, .du b e, .u e]), (θ, [.u a, .u b, .du e e])]

/-- The expanded entries of the stress of a tensor. -/
def sigmaTerms (shear bulk : K) (S : Fin D → Fin D → Expanded K D) (i j : Fin D) : Expanded K D :=
  scale (-shear) (S i j) ++
    if i = j then (List.finRange D).flatMap fun k => scale ((shear - bulk) / D) (S k k) else []

/-- The values of the symbols. -/
def symbols (d : Derivatives K A D) (ε : K) (rho : A) (u : Fin D → A) : Sym D → A
  | .rho => rho
  | .u i => u i
  | .du i j => dx d ε j (u i)
  | .drho i => dx d ε i rho

end Spec

theorem toPoly_append (e f : Expanded K D) : (e ++ f).toPoly = e.toPoly + f.toPoly := by simp [Expanded.toPoly]
theorem toPoly_nil : Expanded.toPoly ([] : Expanded K D) = 0 := rfl
theorem toPoly_cons (p : K × List (Sym D)) (e : Expanded K D) :
    Expanded.toPoly (p :: e) = C p.1 * (p.2.map X).prod + e.toPoly := by simp [Expanded.toPoly]

theorem toPoly_scale (k : K) (e : Expanded K D) : (scale k e).toPoly = C k * e.toPoly := by
  induction e with
  | nil => simp [scale, toPoly_nil]
  | cons p e ih =>
    have : scale k (p :: e) = (k * p.1, p.2) :: scale k e := rfl
    rw [this, toPoly_cons, toPoly_cons, ih, map_mul]; ring

theorem toPoly_flatMap {α : Type} (l : List α) (g : α → Expanded K D) :
    Expanded.toPoly (l.flatMap g) = (l.map fun x => (g x).toPoly).sum := by
  induction l with
  | nil => rfl
  | cons x l ih => rw [List.flatMap_cons, toPoly_append, ih]; simp

theorem toPoly_finRange (g : Fin D → Expanded K D) :
    Expanded.toPoly ((List.finRange D).flatMap g) = ∑ e, (g e).toPoly := by
  rw [toPoly_flatMap, Fin.sum_univ_def]

theorem dx_mul (d : Derivatives K A D) (ε : K) (a : Fin D) (g h : A) :
    dx d ε a (g * h) = g * dx d ε a h + h * dx d ε a g := by
  unfold dx
  rw [Derivation.leibniz, smul_eq_mul, smul_eq_mul, smul_add, mul_smul_comm, mul_smul_comm]

theorem strainTerms_value (d : Derivatives K A D) (ε cs θ : K) (rho : A) (u : Fin D → A) (a b : Fin D) :
    aeval (symbols d ε rho u) (strainTerms cs θ a b).toPoly = strain d ε cs θ rho u a b := by
  unfold strainTerms strain
  rw [toPoly_append, toPoly_finRange]
  simp only [toPoly_cons, toPoly_nil, List.map_cons, List.map_nil, List.prod_cons, List.prod_nil, map_add, map_mul, map_sum,
    aeval_X, aeval_C, map_zero, map_one, symbols, dx_mul, Algebra.smul_def, Finset.mul_sum]
  rw [sub_eq_add_neg (_ * _) (Finset.sum _ _), ← Finset.sum_neg_distrib]
  congr 1
  · ring
  · refine Finset.sum_congr rfl fun e _ => ?_
    rw [map_neg]; ring

theorem strainTermsIncompressible_value (d : Derivatives K A D) (ε cs θ : K) (rho : A) (u : Fin D → A) (a b : Fin D) :
    aeval (symbols d ε rho u) (strainTermsIncompressible cs θ a b).toPoly = strainIncompressible d ε cs θ rho u a b := by
  unfold strainTermsIncompressible strainIncompressible
  rw [toPoly_append, toPoly_finRange]
  simp only [toPoly_cons, toPoly_nil, List.map_cons, List.map_nil, List.prod_cons, List.prod_nil, map_add, map_mul, map_sum,
    aeval_X, aeval_C, map_zero, map_one, symbols, dx_mul, Algebra.smul_def, Finset.mul_sum, map_neg]
  have hr : ∀ x y z w v : A, x - (y + z + w - v) = x - y + (-z - w + v) := by intros; ring
  rw [hr]
  simp only [← Finset.sum_neg_distrib, ← Finset.sum_sub_distrib, ← Finset.sum_add_distrib]
  congr 1
  · ring
  · refine Finset.sum_congr rfl fun e _ => ?_
    ring

/-- C68. The expanded stress has the value of the stress in the momentum equation. -/
theorem C68_sigma_value (v : Sym D → A) (s b : K) (T : Fin D → Fin D → Expanded K D) (S : Fin D → Fin D → A)
    (h : ∀ i j, aeval v (T i j).toPoly = S i j) (i j : Fin D) :
    aeval v (sigmaTerms s b T i j).toPoly = stress s b S i j := by
  unfold sigmaTerms stress
  rw [toPoly_append, toPoly_scale, map_add, map_mul, h, aeval_C]
  by_cases hij : i = j
  · simp only [hij, if_true]
    rw [toPoly_finRange, map_sum]
    simp only [toPoly_scale, map_mul, h, aeval_C, ← Finset.mul_sum]
    generalize ∑ k, S k k = t
    simp only [Algebra.smul_def]
    rw [map_neg, div_eq_mul_one_div, map_mul, map_sub]
    ring
  · simp only [hij, if_false, toPoly_nil, map_zero, map_neg, Algebra.smul_def]
    ring

theorem args_two (p q : K × List (Sym D)) (e : Expanded K D) : Expanded.args (p :: q :: e) = p :: q :: e := rfl

theorem filter_two (e : Expanded K D) (h : 2 ≤ (e.filter fun p => p.2.countP Sym.isDrho = 0).length) :
    removeErrorTerms e = e.filter fun p => p.2.countP Sym.isU ≤ 1 ∧ p.2.countP Sym.isDrho = 0 := by
  unfold removeErrorTerms removeHigherOrderU
  have harg : ∀ e : Expanded K D, 2 ≤ e.length → e.args = e := by
    intro e he
    match e, he with
    | p :: q :: e, _ => rfl
  rw [harg _ h, List.filter_filter]
  congr 1
  funext p
  simp

/-- What remains of an expression without the products with a density gradient or with more than one velocity. -/
def lowTerms (e : Expanded K D) : Expanded K D := e.filter fun p => p.2.countP Sym.isU ≤ 1 ∧ p.2.countP Sym.isDrho = 0

theorem lowTerms_append (e f : Expanded K D) : lowTerms (e ++ f) = lowTerms e ++ lowTerms f := by simp [lowTerms]

theorem lowTerms_scale (k : K) (e : Expanded K D) : lowTerms (scale k e) = scale k (lowTerms e) := by
  unfold lowTerms scale
  rw [List.filter_map]
  rfl

theorem lowTerms_flatMap {α : Type} (l : List α) (g : α → Expanded K D) :
    lowTerms (l.flatMap g) = l.flatMap fun x => lowTerms (g x) := by
  induction l with
  | nil => rfl
  | cons x l ih => rw [List.flatMap_cons, lowTerms_append, ih, List.flatMap_cons]

theorem lowTerms_sigma (s b : K) (S : Fin D → Fin D → Expanded K D) (i j : Fin D) :
    lowTerms (sigmaTerms s b S i j) = sigmaTerms s b (fun i j => lowTerms (S i j)) i j := by
  unfold sigmaTerms
  rw [lowTerms_append, lowTerms_scale]
  split_ifs
  · rw [lowTerms_flatMap]; simp only [lowTerms_scale]
  · rfl

theorem lowTerms_strain (cs θ : K) (a b : Fin D) :
    lowTerms (strainTerms cs θ a b) = [(cs, [.rho, .du b a]), (cs, [.rho, .du a b])] := by
  unfold strainTerms
  rw [lowTerms_append, lowTerms_flatMap]
  have h : ((List.finRange D).flatMap fun e => lowTerms [(-(1 - θ), [Sym.drho e, .u a, .u b, .u e]),
      (-(1 - θ), [.rho, .du a e, .u b, .u e]), (-(1 - θ), [.rho, .u a, .du b e, .u e]),
      (-(1 - θ), [.rho, .u a, .u b, .du e e])]) = [] := by
    rw [List.flatMap_eq_nil_iff]
    intro e _
    simp [lowTerms, Sym.isU, Sym.isDrho, List.countP_cons]
  rw [h]
  simp [lowTerms, Sym.isU, Sym.isDrho, List.countP_cons]

theorem lowTerms_strainIncompressible (cs θ : K) (a b : Fin D) :
    lowTerms (strainTermsIncompressible cs θ a b) = [(cs, [.du b a]), (cs, [.du a b])] := by
  unfold strainTermsIncompressible
  rw [lowTerms_append, lowTerms_flatMap]
  have h : ((List.finRange D).flatMap fun e => lowTerms [((-1 : K), [Sym.u b, .du a e, .u e]), (-1, [.u b, .u a, .du e e]),
      (-1, [.u a, .du b e, .u e]), (-1, [.u a, .u b, .du e e]),
      (θ, [.du a e, .u b, .u e]), (θ, [.u a, .du b e, .u e]), (θ, [.u a, .u b, .du e e])]) = [] := by
    rw [List.flatMap_eq_nil_iff]
    intro e _
    simp [lowTerms, Sym.isU, Sym.isDrho, List.countP_cons]
  rw [h]
  simp [lowTerms, Sym.isU, Sym.isDrho, List.countP_cons]

theorem two_le_low (e : Expanded K D) (h : 2 ≤ (lowTerms e).length) :
    2 ≤ (e.filter fun p => p.2.countP Sym.isDrho = 0).length := by
  refine h.trans ?_
  have : lowTerms e = (e.filter fun p => p.2.countP Sym.isDrho = 0).filter fun p => p.2.countP Sym.isU ≤ 1 := by
    unfold lowTerms
    rw [List.filter_filter]
    congr 1
    funext p
    simp
  rw [this]
  exact List.length_filter_le _ _

theorem removeErrorTerms_low (e : Expanded K D) (h : 2 ≤ (lowTerms e).length) : removeErrorTerms e = lowTerms e :=
  filter_two e (two_le_low e h)

/-- C68. Without error terms the stress of the method is that of a Newtonian fluid, with the viscosity
`cs (1/ω_shear - 1/2)`. -/
theorem C68_sigma_newtonian (comp : Bool) (s b cs θ : K) :
    sigmaWithoutErrors (fun i j => sigmaTerms s b
      (fun a b => if comp then strainTerms cs θ a b else strainTermsIncompressible cs θ a b) i j) =
      newtonianStress (D := D) comp (s * cs) (2 * ((s - b) / D) * cs) := by
  funext i j
  unfold sigmaWithoutErrors
  have hlow : ∀ a b : Fin D, lowTerms (if comp then strainTerms cs θ a b else strainTermsIncompressible cs θ a b) =
      if comp then [(cs, [Sym.rho, .du b a]), (cs, [.rho, .du a b])] else [(cs, [Sym.du b a]), (cs, [.du a b])] := by
    intro a b
    cases comp
    · exact lowTerms_strainIncompressible cs θ a b
    · exact lowTerms_strain cs θ a b
  have hsig := lowTerms_sigma s b (fun a b => if comp then strainTerms cs θ a b else strainTermsIncompressible cs θ a b) i j
  simp only [hlow] at hsig
  have hlen : 2 ≤ (lowTerms (sigmaTerms s b
      (fun a b => if comp then strainTerms cs θ a b else strainTermsIncompressible cs θ a b) i j)).length := by
    rw [hsig]
    unfold sigmaTerms scale
    rw [List.length_append, List.length_map]
    cases comp <;> simp
  rw [removeErrorTerms_low _ hlen, hsig]
  unfold sigmaTerms newtonianStress
  rw [toPoly_append, toPoly_scale, rhoFactor_eq]
  have e1 : ∀ a b : Fin D, Expanded.toPoly (if comp then [(cs, [Sym.rho, .du b a]), (cs, [.rho, .du a b])]
      else [(cs, [Sym.du b a]), (cs, [.du a b])]) =
      (if comp then X .rho else 1 : MvPolynomial (Sym D) K) * (C cs * (X (.du b a) + X (.du a b))) := by
    intro a b
    cases comp <;> simp [toPoly_cons, toPoly_nil] <;> ring
  rw [e1]
  by_cases hij : i = j
  · simp only [hij, if_true]
    rw [toPoly_finRange]
    simp only [toPoly_scale, e1]
    simp only [map_mul, map_neg, map_ofNat]
    rw [mul_add (if comp = true then X Sym.rho else 1 : MvPolynomial (Sym D) K), Finset.mul_sum, Finset.mul_sum]
    congr 1
    · ring
    · exact Finset.sum_congr rfl fun k _ => by ring
  · simp only [hij, if_false, toPoly_nil, map_mul, map_neg, mul_add, add_zero]
    ring

/-- C68. `get_kinematic_viscosity` of a method with the shear rate `ωs`, on a lattice with `cs = c_s²`: whatever the bulk rate
and the error terms are, `cs (1/ωs - 1/2)`. -/
theorem C68_viscosity_of_method (comp : Bool) (ωs ωb cs θ : K) :
    kinematicViscosity comp (sigmaWithoutErrors (D := D + 2) (fun i j => sigmaTerms (1 / ωs - 1 / 2) (1 / ωb - 1 / 2)
      (fun a b => if comp then strainTerms cs θ a b else strainTermsIncompressible cs θ a b) i j)) =
      .ok (toRatio (C ((1 / ωs - 1 / 2) * cs))) := by
  rw [C68_sigma_newtonian, C68_kinematic_viscosity]

/-- C68. And it is found to approximate the Navier–Stokes equations. -/
theorem C68_method_conditions (comp : Bool) (s b cs θ : K) :
    nsConditions (sigmaWithoutErrors (D := D + 2) (fun i j => sigmaTerms s b
      (fun a b => if comp then strainTerms cs θ a b else strainTermsIncompressible cs θ a b) i j)) = {0} := by
  rw [C68_sigma_newtonian, C68_newtonian_conditions]

/-- C68. The bulk viscosity of a method in three dimensions with the rates `ωs` and `ωb` is `2/3 cs (1/ωb - 1/2)`; the value
that is returned, `2/3 cs (2 (1/ωs - 1/2) - (1/ωb - 1/2))`, is that one only if the rates agree. -/
theorem C68_method_bulk [CharZero K] (comp : Bool) (s b cs θ : K) (hcs : cs ≠ 0) :
    bulkViscosity (sigmaWithoutErrors (D := 3) (fun i j => sigmaTerms s b
      (fun a b => if comp then strainTerms cs θ a b else strainTermsIncompressible cs θ a b) i j))
      (C (s * cs) * rhoFactor comp) = .ok (rhoFactor comp * C (2 / 3 * cs * (2 * s - b))) ∧
    (2 / 3 * cs * (2 * s - b) = 2 / 3 * cs * b ↔ s = b) := by
  constructor
  · rw [C68_sigma_newtonian, C68_bulk_viscosity_value (D := 2)]
    congr 3
    push_cast
    ring
  · constructor
    · intro h
      have h3 : (2 / 3 * cs : K) ≠ 0 := mul_ne_zero (by norm_num) hcs
      have := mul_left_cancel₀ h3 h
      linear_combination (1 / 2) * this
    · rintro rfl; ring

example : kinematicViscosity true (sigmaWithoutErrors (D := 2) (fun i j => sigmaTerms (1 / (3 / 2) - 1 / 2 : ℚ) (1 / 1 - 1 / 2)
      (fun a b => if true then strainTerms (1 / 3) 0 a b else strainTermsIncompressible (1 / 3) 0 a b) i j)) =
      .ok (toRatio (C ((1 / (3 / 2) - 1 / 2) * (1 / 3)))) := C68_viscosity_of_method (D := 0) true (3 / 2) 1 (1 / 3) 0

/-- C68. `relaxation_rate_from_kinematic_viscosity` inverts the viscosity `cs (1/ω - 1/2)`; the rate is unique.  For the
square speed of sound `1/3` it is the rate `2 / (6 ν + 1)` of the other conversion function. -/
theorem C68_rate_from_viscosity [DecidableEq K] [CharZero K] (cs nu : K) (hcs : cs ≠ 0) :
    (nu + cs / 2 ≠ 0 → ∃ ω, rateFromViscosity cs (-cs / 2) nu = .ok ω ∧ ω ≠ 0 ∧ cs * (1 / ω - 1 / 2) = nu ∧
      (cs = 1 / 3 → ω = 2 / (6 * nu + 1)) ∧ ∀ ω', ω' ≠ 0 → cs * (1 / ω' - 1 / 2) = nu → ω' = ω) ∧
    (nu + cs / 2 = 0 → rateFromViscosity cs (-cs / 2) nu = .error .indexError ∧
      ∀ ω', ω' ≠ 0 → cs * (1 / ω' - 1 / 2) ≠ nu) := by
  have e : nu - -cs / 2 = nu + cs / 2 := by ring
  unfold rateFromViscosity
  rw [e]
  constructor
  · intro h
    rw [if_neg (by simp [h, hcs])]
    have h2 : (nu * 2 + cs : K) ≠ 0 := by
      intro h0; apply h; linear_combination (1 / 2) * h0
    refine ⟨_, rfl, div_ne_zero hcs h, ?_, ?_, ?_⟩
    · field_simp; ring
    · rintro rfl
      have h3 : (6 * nu + 1 : K) ≠ 0 := by
        intro h0; apply h; linear_combination (1 / 6) * h0
      rw [div_eq_div_iff h h3]; ring
    · intro ω' h0 hω
      rw [eq_div_iff h, ← hω]
      field_simp
      ring
  · intro h
    rw [if_pos (.inl h)]
    refine ⟨rfl, fun ω' h0 hω => ?_⟩
    rw [← hω] at h
    have : cs * (1 / ω') = 0 := by linear_combination h
    rcases mul_eq_zero.1 this with h1 | h1
    · exact hcs h1
    · rw [one_div] at h1; exact h0 (inv_eq_zero.1 h1)

example : rateFromViscosity (1 / 3 : ℚ) (-(1 / 3) / 2) (1 / 6) = .ok 1 := by
  unfold rateFromViscosity; norm_num

/-- C68, disagreement (latent): of an entry that is a single product `remove_higher_order_u` keeps factors instead of
summands; `-ρ Diff(u_0, 0)` becomes `-1 + ρ + Diff(u_0, 0)`. -/
theorem C68_single_product :
    removeErrorTerms ([(-1, [.rho, .du 0 0])] : Expanded ℚ 1) = [(-1, []), (1, [.rho]), (1, [.du 0 0])] ∧
      Expanded.toPoly (removeErrorTerms ([(-1, [.rho, .du 0 0])] : Expanded ℚ 1)) ≠
        Expanded.toPoly ([(-1, [.rho, .du 0 0])] : Expanded ℚ 1) := by
  have h : removeErrorTerms ([(-1, [.rho, .du 0 0])] : Expanded ℚ 1) = [(-1, []), (1, [.rho]), (1, [.du 0 0])] := by
    simp [removeErrorTerms, removeHigherOrderU, Expanded.args, Sym.isU, Sym.isDrho]
  refine ⟨h, ?_⟩
  rw [h]
  intro he
  have := congrArg (aeval (fun _ => (0 : ℚ))) he
  simp [toPoly_cons, toPoly_nil] at this

end

/-- C68 for a one-dimensional method with two relaxation rates: the rows `1, x, x²` on D1Q3. -/
example : Spec.StressRates (!![1, 1, 1; 0, 1, -1; 0, 1, 1] : Matrix (Fin 3) (Fin 3) ℚ)
    (fun i => if ![true, false, true] i then 3 / 2 else 1 / 2) (fun q (_ : Fin 1) => ![0, 1, -1] q) (3 / 2) (3 / 2) :=
  C68_two_rates _ (by simp [Matrix.det_fin_three]) ![0, 2, 1] ![true, false, true]
    (by decide +kernel) _ (by decide +kernel) (3 / 2) (1 / 2)

end ChapmanEnskog
end Lbm
