import Verif.Props.DerivativeMoments
import Mathlib.Algebra.MvPolynomial.PDeriv
import Mathlib.Algebra.MvPolynomial.Degrees
import Mathlib.Algebra.BigOperators.Fin
import Mathlib.Data.ZMod.Basic
import Mathlib.Data.Rat.Cast.CharZero
import Mathlib.Data.Fintype.Pi
import Mathlib.Data.Fintype.BigOperators
import Mathlib.Tactic.LinearCombination
import Mathlib.Tactic.FieldSimp
import Mathlib.Tactic.FinCases
import Mathlib.Tactic.NormNum
import Mathlib.Tactic.Ring

/-!
# Property C93: finite differences of the conservative Allen-Cahn model
-/

namespace Lbm
namespace Derivatives

open MvPolynomial

variable {K : Type} [Field K] {D : ℕ}

/-! ## Specification -/

namespace Spec

/-- The values of a polynomial on the grid -/
noncomputable def sample (p : MvPolynomial (Fin D) K) (x : Vec D) : K := eval (fun a => (x a : K)) p

/-- The Laplacian -/
noncomputable def laplace (p : MvPolynomial (Fin D) K) : MvPolynomial (Fin D) K := ∑ i, pderiv i (pderiv i p)

end Spec

/-! ## Taylor expansion -/

/-- A polynomial seen from another origin -/
noncomputable def shift (y : Fin D → K) (p : MvPolynomial (Fin D) K) : MvPolynomial (Fin D) K := aeval (fun i => X i + C (y i)) p

theorem eval_shift (y z : Fin D → K) (p : MvPolynomial (Fin D) K) : eval z (shift y p) = eval (fun i => y i + z i) p := by
  induction p using MvPolynomial.induction_on with
  | C a => simp [shift]
  | add p q hp hq => simp only [shift, map_add] at *; rw [hp, hq]
  | mul_X p i hp =>
    simp only [shift, map_mul, aeval_X, map_add, eval_X, eval_C] at *
    rw [hp, add_comm]

theorem pderiv_shift (y : Fin D → K) (i : Fin D) (p : MvPolynomial (Fin D) K) : pderiv i (shift y p) = shift y (pderiv i p) := by
  induction p using MvPolynomial.induction_on with
  | C a => simp [shift]
  | add p q hp hq => simp only [shift, map_add] at *; rw [hp, hq]
  | mul_X p j hp =>
    simp only [shift, map_mul, aeval_X] at *
    rw [pderiv_mul, pderiv_mul, hp, map_add, pderiv_C, add_zero]
    simp only [map_add, map_mul, aeval_X]
    by_cases h : i = j
    · subst h
      simp
    · simp [pderiv_X_of_ne (Ne.symm h)]

theorem totalDegree_shift (y : Fin D → K) (p : MvPolynomial (Fin D) K) : (shift y p).totalDegree ≤ p.totalDegree := by
  conv_lhs => rw [p.as_sum, shift, map_sum]
  refine totalDegree_finsetSum_le fun m hm => ?_
  rw [aeval_monomial]
  refine (totalDegree_mul _ _).trans ?_
  rw [algebraMap_eq, totalDegree_C, zero_add]
  unfold Finsupp.prod
  refine (totalDegree_finsetProd _ _).trans (le_trans (Finset.sum_le_sum fun i _ => (totalDegree_pow _ _).trans (Nat.mul_le_mul_left (m i) (?_ : _ ≤ 1))) ?_)
  · refine (totalDegree_add _ _).trans ?_
    rw [totalDegree_C]
    exact max_le (totalDegree_X i).le (Nat.zero_le 1)
  · simp only [mul_one]
    exact le_totalDegree hm

theorem list_sum_sum {X Y : Type} (l : List X) (s : Finset Y) (f : X → Y → K) : (l.map fun x => ∑ y ∈ s, f x y).sum = ∑ y ∈ s, (l.map fun x => f x y).sum := by
  induction l with
  | nil => simp
  | cons x l ih => simp [ih, Finset.sum_add_distrib]

/-- Weights on a polynomial are determined by their moments. -/
theorem apply_eq [CharZero K] (st : List (List ℤ)) (w : List ℤ → ℚ) (p : MvPolynomial (Fin D) K) (x : Vec D) :
    apply st w (Spec.sample p) x = ∑ m ∈ (shift (fun a => (x a : K)) p).support, (shift (fun a => (x a : K)) p).coeff m * (moment st w m : K) := by
  unfold apply Spec.sample moment
  have h : ∀ l : List ℤ, eval (fun a => ((x a + l.getD a 0 : ℤ) : K)) p = ∑ m ∈ (shift (fun a => (x a : K)) p).support,
      (shift (fun a => (x a : K)) p).coeff m * ∏ a : Fin D, ((l.getD a 0 : ℤ) : K) ^ m a := by
    intro l
    rw [← eval_eq' (fun a : Fin D => ((l.getD a 0 : ℤ) : K)), eval_shift]
    congr 2
    funext a
    push_cast
    rfl
  simp only [h, Finset.mul_sum]
  rw [list_sum_sum]
  refine Finset.sum_congr rfl fun m _ => ?_
  rw [Rat.cast_list_sum, List.map_map, ← List.sum_map_mul_left]
  congr 1
  refine List.map_congr_left fun l _ => ?_
  simp only [Function.comp]
  push_cast
  ring

/-- The value of a combination of coefficients -/
theorem sum_support (p : MvPolynomial (Fin D) K) (a : Fin D →₀ ℕ) (r : K) : (∑ m ∈ p.support, p.coeff m * if m = a then r else 0) = r * p.coeff a := by
  simp only [mul_ite, mul_zero, Finset.sum_ite_eq', mem_support_iff]
  split_ifs with h
  · ring
  · simp [notMem_support_iff.1 h]

theorem sum_supports {I : Type} [Fintype I] (p : MvPolynomial (Fin D) K) (a : I → Fin D →₀ ℕ) (r : I → K) :
    (∑ m ∈ p.support, p.coeff m * ∑ i, if m = a i then r i else 0) = ∑ i, r i * p.coeff (a i) := by
  simp only [Finset.mul_sum]
  rw [Finset.sum_comm]
  exact Finset.sum_congr rfl fun i _ => sum_support p (a i) (r i)

theorem sum_supports₂ {I J : Type} [Fintype I] [Fintype J] (p : MvPolynomial (Fin D) K) (a : I → J → Fin D →₀ ℕ) (r : I → J → K) :
    (∑ m ∈ p.support, p.coeff m * ∑ i, ∑ j, if m = a i j then r i j else 0) = ∑ i, ∑ j, r i j * p.coeff (a i j) := by
  simp only [Finset.mul_sum]
  rw [Finset.sum_comm]
  refine Finset.sum_congr rfl fun i _ => ?_
  rw [Finset.sum_comm]
  exact Finset.sum_congr rfl fun j _ => sum_support p (a i j) (r i j)

theorem eval_zero_pderiv (p : MvPolynomial (Fin D) K) (i : Fin D) : eval 0 (pderiv i p) = p.coeff (Finsupp.single i 1) := by
  rw [eval_zero, constantCoeff_eq, coeff_pderiv]
  simp

theorem eval_zero_second (p : MvPolynomial (Fin D) K) (i : Fin D) : eval 0 (pderiv i (pderiv i p)) = 2 * p.coeff (Finsupp.single i 2) := by
  rw [eval_zero_pderiv, coeff_pderiv, ← Finsupp.single_add]
  simp
  ring

theorem eval_zero_third (p : MvPolynomial (Fin D) K) (a i : Fin D) : eval 0 (pderiv a (pderiv i (pderiv i p))) =
    (if i = a then 6 else 2) * p.coeff (Finsupp.single a 1 + Finsupp.single i 2) := by
  rw [eval_zero_pderiv, coeff_pderiv, coeff_pderiv, add_assoc, ← Finsupp.single_add]
  by_cases h : i = a
  · subst h
    simp
    ring
  · simp [h]
    ring

theorem eval_zero_fourth (p : MvPolynomial (Fin D) K) (i j : Fin D) : eval 0 (pderiv i (pderiv i (pderiv j (pderiv j p)))) =
    (if i = j then 24 else 4) * p.coeff (Finsupp.single i 2 + Finsupp.single j 2) := by
  rw [eval_zero_second, coeff_pderiv, coeff_pderiv, add_assoc, ← Finsupp.single_add]
  by_cases h : i = j
  · subst h
    simp
    ring
  · simp [h, Ne.symm h]
    ring

theorem sample_eq (p : MvPolynomial (Fin D) K) (x : Vec D) : Spec.sample p x = eval 0 (shift (fun a => (x a : K)) p) := by
  rw [eval_shift, Spec.sample]
  simp

/-! ## Exactness -/

section Exactness

theorem apply_sum [CharZero K] (st : List (List ℤ)) (t : ℕ → ℕ → ℚ) (f : Vec D → K) (x : Vec D) :
    ∑ i : Fin D, apply st (secondWeight t i) f x = apply st (laplaceWeight t D) f x := by
  unfold apply laplaceWeight
  rw [← list_sum_sum]
  congr 1
  refine List.map_congr_left fun l _ => ?_
  rw [Rat.cast_sum, Finset.sum_mul]

theorem bounded {p : MvPolynomial (Fin D) K} {n : ℕ} (hp : p.totalDegree ≤ n) (y : Fin D → K) {m : Fin D →₀ ℕ} (hm : m ∈ (shift y p).support) :
    ∃ m' : Fin D → Fin (n + 1), (fun a => (m' a).val) = m ∧ ∑ a, (m' a).val ≤ n := by
  have h : ∑ a, m a ≤ n := by
    refine le_trans ?_ ((le_totalDegree hm).trans ((totalDegree_shift y p).trans hp))
    rw [Finsupp.sum_fintype _ _ fun _ => rfl]
  have h' : ∀ a, m a < n + 1 := fun a => Nat.lt_succ_of_le ((Finset.single_le_sum (f := fun a => m a) (fun _ _ => Nat.zero_le _) (Finset.mem_univ a)).trans h)
  exact ⟨fun a => ⟨m a, h' a⟩, rfl, h⟩

theorem coe_eq_single {m : Fin D →₀ ℕ} {i : Fin D} {k : ℕ} : (m : Fin D → ℕ) = Pi.single i k ↔ m = Finsupp.single i k := by
  rw [← Finsupp.single_eq_pi_single]
  exact DFunLike.coe_injective.eq_iff

theorem coe_eq_add {m : Fin D →₀ ℕ} {i j : Fin D} {k k' : ℕ} : (m : Fin D → ℕ) = Pi.single i k + Pi.single j k' ↔ m = Finsupp.single i k + Finsupp.single j k' := by
  rw [← Finsupp.single_eq_pi_single, ← Finsupp.single_eq_pi_single, ← Finsupp.coe_add]
  exact DFunLike.coe_injective.eq_iff

/-- **C93 (Laplacian).** Up to fifth order in the distance, the difference for the Laplacian has the error of the Laplacian twice, divided by twelve; but with
15 directions mixed derivatives in addition. -/
theorem C93_laplacian [CharZero K] : ∀ e ∈ Tables.predefined, (secondTable (e.2.2.headD []).length e.2.2.length).isSome →
    ∀ p : MvPolynomial (Fin (e.2.2.headD []).length) K, p.totalDegree ≤ 5 → ∀ x, laplacianSymbolic e.2.2 (Spec.sample p) x = .ok (Spec.sample (Spec.laplace p) x +
      1 / 12 * Spec.sample (Spec.laplace (Spec.laplace p)) x +
      if e.2.2.length = 15 then 5 / 72 * ∑ i, ∑ j, if i = j then 0 else Spec.sample (pderiv i (pderiv i (pderiv j (pderiv j p)))) x else 0) := by
  intro e he ht p hp x
  obtain ⟨t, ht⟩ := Option.isSome_iff_exists.1 ht
  unfold laplacianSymbolic
  rw [ht]
  simp only
  rw [apply_sum, apply_eq]
  congr 1
  have hm := laplace_moments e he t ht
  generalize e.2.2.length = Q at hm ⊢
  rw [Finset.sum_congr rfl fun m h => (by
    obtain ⟨m', e1, e2⟩ := bounded hp (fun a => (x a : K)) h
    have := hm m' e2
    simp only [e1, coe_eq_single, coe_eq_add] at this
    rw [this] : _ = _)]
  obtain ⟨q, hq⟩ : ∃ q, q = shift (fun a => (x a : K)) p := ⟨_, rfl⟩
  have s1 : Spec.sample (Spec.laplace p) x = ∑ i, 2 * q.coeff (Finsupp.single i 2) := by
    rw [sample_eq, Spec.laplace, shift, map_sum, map_sum]
    refine Finset.sum_congr rfl fun i _ => ?_
    rw [← eval_zero_second, hq, pderiv_shift, pderiv_shift]
    rfl
  have s2 : ∀ i j, Spec.sample (pderiv i (pderiv i (pderiv j (pderiv j p)))) x = (if i = j then 24 else 4) * q.coeff (Finsupp.single i 2 + Finsupp.single j 2) := by
    intro i j
    rw [sample_eq, ← eval_zero_fourth, hq, pderiv_shift, pderiv_shift, pderiv_shift, pderiv_shift]
  have s3 : Spec.sample (Spec.laplace (Spec.laplace p)) x = ∑ i, ∑ j, (if i = j then 24 else 4) * q.coeff (Finsupp.single i 2 + Finsupp.single j 2) := by
    simp only [← s2]
    simp only [Spec.laplace, Spec.sample, map_sum]
  rw [s1, s3]
  simp only [s2, ← hq]
  rw [Finset.sum_congr rfl fun m _ => (by
    simp only [Rat.cast_add, Rat.cast_sum, apply_ite (Rat.cast : ℚ → K), Rat.cast_ofNat, Rat.cast_zero, Rat.cast_one, Rat.cast_div]
    rw [mul_add] : _ = q.coeff m * (∑ i, if m = Finsupp.single i 2 then (2 : K) else 0) +
      q.coeff m * ∑ i, ∑ j, if m = Finsupp.single i 2 + Finsupp.single j 2 then (if i = j then (2 : K) else if Q = 15 then 11 / 18 else 1 / 3) else 0),
    Finset.sum_add_distrib, sum_supports, sum_supports₂, add_assoc]
  congr 1
  split_ifs with h15
  · simp only [Finset.mul_sum, ← Finset.sum_add_distrib]
    refine Finset.sum_congr rfl fun i _ => Finset.sum_congr rfl fun j _ => ?_
    split_ifs <;> ring
  · simp only [Finset.mul_sum, add_zero]
    refine Finset.sum_congr rfl fun i _ => Finset.sum_congr rfl fun j _ => ?_
    split_ifs <;> ring

/-- The components of the gradient: numbers and places the weights are taken from -/
def components (D : ℕ) : List (ℕ × (List ℤ → List ℤ)) := [(0, id), (1, rotate01)] ++ (if D = 3 then [(2, rotate12)] else [])

theorem first_exact [CharZero K] : ∀ e ∈ Tables.predefined, 2 ≤ (e.2.2.headD []).length → ∀ t ∈ firstTable (e.2.2.headD []).length e.2.2.length,
    ∀ r ∈ components (e.2.2.headD []).length, ∀ p : MvPolynomial (Fin (e.2.2.headD []).length) K, p.totalDegree ≤ 4 → ∀ (k : Fin (e.2.2.headD []).length) x, k.val = r.1 →
    apply e.2.2 (fun l => firstWeight t (r.2 l)) (Spec.sample p) x = Spec.sample (pderiv k p) x + 1 / 6 * Spec.sample (pderiv k (Spec.laplace p)) x := by
  intro e he hD t ht r hr p hp k x hk
  rw [apply_eq]
  have hm := first_moments e he hD t ht r hr
  rw [Finset.sum_congr rfl fun m h => (by
    obtain ⟨m', e1, e2⟩ := bounded hp (fun a => (x a : K)) h
    have := hm m' e2
    simp only [e1, coe_eq_single, coe_eq_add, ← hk, Fin.val_inj] at this
    rw [this, Finset.sum_ite_eq' Finset.univ k, if_pos (Finset.mem_univ k)] : _ = _)]
  obtain ⟨q, hq⟩ : ∃ q, q = shift (fun a => (x a : K)) p := ⟨_, rfl⟩
  have s1 : Spec.sample (pderiv k p) x = 1 * q.coeff (Finsupp.single k 1) := by
    rw [sample_eq, one_mul, ← eval_zero_pderiv, hq, pderiv_shift]
  have s2 : Spec.sample (pderiv k (Spec.laplace p)) x = ∑ i, (if i = k then 6 else 2) * q.coeff (Finsupp.single k 1 + Finsupp.single i 2) := by
    rw [Spec.laplace, map_sum, Spec.sample, map_sum]
    refine Finset.sum_congr rfl fun i _ => ?_
    have := sample_eq (pderiv k (pderiv i (pderiv i p))) x
    rw [Spec.sample] at this
    rw [this, ← eval_zero_third, hq, pderiv_shift, pderiv_shift, pderiv_shift]
  rw [s1, s2, ← hq]
  rw [Finset.sum_congr rfl fun m _ => (by
    simp only [Rat.cast_add, Rat.cast_sum, apply_ite (Rat.cast : ℚ → K), Rat.cast_ofNat, Rat.cast_zero, Rat.cast_one, Rat.cast_div]
    rw [mul_add] : _ = q.coeff m * (if m = Finsupp.single k 1 then (1 : K) else 0) +
      q.coeff m * ∑ i, if m = Finsupp.single k 1 + Finsupp.single i 2 then (if i = k then (1 : K) else 1 / 3) else 0),
    Finset.sum_add_distrib, sum_support, sum_supports]
  congr 1
  rw [Finset.mul_sum]
  refine Finset.sum_congr rfl fun i _ => ?_
  split_ifs <;> ring

/-- **C93 (gradient).** Up to fourth order in the distance, all components of the gradient have the error of the derivative of the Laplacian, divided by six; in two
dimensions the third component is zero. -/
theorem C93_gradient [CharZero K] : ∀ e ∈ Tables.predefined, 2 ≤ (e.2.2.headD []).length → (firstTable (e.2.2.headD []).length e.2.2.length).isSome →
    ∀ p : MvPolynomial (Fin (e.2.2.headD []).length) K, p.totalDegree ≤ 4 → ∀ x, ∃ g, isotropicGradientSymbolic e.2.2 (Spec.sample p) x = .ok g ∧ g.length = 3 ∧
      (∀ k : Fin (e.2.2.headD []).length, g.getD k 0 = Spec.sample (pderiv k p) x + 1 / 6 * Spec.sample (pderiv k (Spec.laplace p)) x) ∧
      ((e.2.2.headD []).length = 2 → g.getD 2 0 = 0) := by
  intro e he hD ht p hp x
  obtain ⟨t, ht⟩ := Option.isSome_iff_exists.1 ht
  have h := first_exact (K := K) e he hD t ht
  have h3 : (e.2.2.headD []).length ≤ 3 := (by decide +kernel : ∀ e ∈ Tables.predefined, (e.2.2.headD []).length ≤ 3) e he
  unfold isotropicGradientSymbolic
  rw [if_neg (by omega), ht]
  refine ⟨_, rfl, rfl, fun k => ?_, fun h2 => if_neg (by omega)⟩
  have hk := k.2
  rcases (by omega : k.val = 0 ∨ k.val = 1 ∨ k.val = 2) with h0 | h0 | h0
  · rw [h0]
    exact h (0, id) (by simp [components]) p hp k x h0
  · rw [h0]
    exact h (1, rotate01) (by simp [components]) p hp k x h0
  · rw [h0]
    have hD3 : (e.2.2.headD []).length = 3 := by omega
    simp only [List.getD_cons_succ, List.getD_cons_zero, hD3, if_true]
    exact h (2, rotate12) (by unfold components; rw [if_pos hD3]; simp) p hp k x h0

theorem not_isotropic [CharZero K] (hD : D = 3) (lam : K) : ¬ ∀ p : MvPolynomial (Fin D) K, p.totalDegree ≤ 5 →
    1 / 12 * ∑ i, ∑ j, (if i = j then 24 else 4) * p.coeff (Finsupp.single i 2 + Finsupp.single j 2) +
      5 / 72 * ∑ i, ∑ j, (if i = j then 0 else (if i = j then 24 else 4) * p.coeff (Finsupp.single i 2 + Finsupp.single j 2)) =
    lam * ∑ i, ∑ j, (if i = j then 24 else 4) * p.coeff (Finsupp.single i 2 + Finsupp.single j 2) := by
  subst hD
  intro key
  have hd : ∀ a b : Fin 3, (monomial (Finsupp.single a 2 + Finsupp.single b 2) (1 : K)).totalDegree ≤ 5 := by
    intro a b
    rw [totalDegree_monomial _ one_ne_zero, Finsupp.sum_add_index' (fun _ => rfl) fun _ _ _ => rfl, Finsupp.sum_single_index rfl, Finsupp.sum_single_index rfl]
    norm_num
  have k1 := key _ (hd 0 0)
  have k2 := key _ (hd 0 1)
  simp [Fin.sum_univ_three, coeff_monomial, Finsupp.ext_iff, Fin.forall_fin_succ, Finsupp.single_apply] at k1 k2
  rw [← k1] at k2
  norm_num at k2

/-- **C93 (isotropy).** With 15 directions the leading error of the Laplacian depends on the direction: it is no multiple of the Laplacian twice.  All other
Laplacians are isotropic up to this order. -/
theorem C93_isotropy [CharZero K] : ∀ e ∈ Tables.predefined, (secondTable (e.2.2.headD []).length e.2.2.length).isSome →
    ((∃ lam : K, ∀ p : MvPolynomial (Fin (e.2.2.headD []).length) K, p.totalDegree ≤ 5 → ∀ x,
      laplacianSymbolic e.2.2 (Spec.sample p) x = .ok (Spec.sample (Spec.laplace p) x + lam * Spec.sample (Spec.laplace (Spec.laplace p)) x)) ↔ e.2.2.length ≠ 15) := by
  intro e he ht
  constructor
  · rintro ⟨lam, h⟩ h15
    have hD : (e.2.2.headD []).length = 3 := (by decide +kernel : ∀ e ∈ Tables.predefined, e.2.2.length = 15 → (e.2.2.headD []).length = 3) e he h15
    have key : ∀ p : MvPolynomial (Fin (e.2.2.headD []).length) K, p.totalDegree ≤ 5 →
        1 / 12 * Spec.sample (Spec.laplace (Spec.laplace p)) 0 + 5 / 72 * ∑ i, ∑ j, (if i = j then 0 else Spec.sample (pderiv i (pderiv i (pderiv j (pderiv j p)))) 0) =
          lam * Spec.sample (Spec.laplace (Spec.laplace p)) 0 := by
      intro p hp
      have h1 := h p hp 0
      rw [C93_laplacian e he ht p hp 0, if_pos h15] at h1
      have := Except.ok.inj h1
      linear_combination this
    have hs : ∀ (p : MvPolynomial (Fin (e.2.2.headD []).length) K) i j, Spec.sample (pderiv i (pderiv i (pderiv j (pderiv j p)))) 0 =
        (if i = j then 24 else 4) * p.coeff (Finsupp.single i 2 + Finsupp.single j 2) := by
      intro p i j
      rw [← eval_zero_fourth, Spec.sample]
      congr 2
      funext a
      simp
    have hl : ∀ p : MvPolynomial (Fin (e.2.2.headD []).length) K, Spec.sample (Spec.laplace (Spec.laplace p)) 0 =
        ∑ i, ∑ j, (if i = j then 24 else 4) * p.coeff (Finsupp.single i 2 + Finsupp.single j 2) := by
      intro p
      simp only [← hs]
      simp only [Spec.laplace, Spec.sample, map_sum]
    simp only [hs, hl] at key
    exact not_isotropic hD lam key
  · intro h15
    exact ⟨1 / 12, fun p hp x => by rw [C93_laplacian e he ht p hp x, if_neg h15, add_zero]⟩

end Exactness

/-! ## Periodic domains -/

section Periodic

variable {n : ℕ}

/-- The cells of a periodic domain as places of the grid -/
def place (y : Fin D → ZMod n) : Vec D := fun a => (y a).cast

theorem apply_periodic (st : List (List ℤ)) (w : List ℤ → ℚ) (f : (Fin D → ZMod n) → K) (y : Fin D → ZMod n) :
    apply st w (fun x => f fun a => (x a : ZMod n)) (place y) = (st.map fun l => (w l : K) * f fun a => y a + (l.getD a 0 : ℤ)).sum := by
  unfold apply place
  congr 1
  refine List.map_congr_left fun l _ => ?_
  refine congrArg (fun z => (w l : K) * f z) ?_
  funext a
  push_cast
  rfl

theorem parts [NeZero n] (st : List (List ℤ)) (w w' : List ℤ → ℚ) (hst : (st.map fun l => l.map fun z => -z).Perm st) (hw : ∀ l ∈ st, w (l.map fun z => -z) = w' l)
    (f g : (Fin D → ZMod n) → K) : ∑ y, g y * apply st w (fun x => f fun a => (x a : ZMod n)) (place y) =
      ∑ y, f y * apply st w' (fun x => g fun a => (x a : ZMod n)) (place y) := by
  have hneg : ∀ (l : List ℤ) (a : Fin D), (l.map fun z => -z).getD a 0 = -l.getD a 0 := by
    intro l a
    simp only [List.getD_eq_getElem?_getD, List.getElem?_map]
    cases l[a.val]? <;> simp
  simp only [apply_periodic, ← List.sum_map_mul_left]
  have e1 : ∀ h : (Fin D → ZMod n) → List ℤ → K, ∑ y, (st.map fun l => h y l).sum = (st.map fun l => ∑ y, h y l).sum := fun h => (list_sum_sum st Finset.univ fun l y => h y l).symm
  rw [e1, e1, ← (hst.map _).sum_eq, List.map_map]
  congr 1
  refine List.map_congr_left fun l hl => ?_
  simp only [Function.comp, hw l hl, hneg]
  refine Fintype.sum_equiv (Equiv.addRight fun a : Fin D => ((-l.getD a 0 : ℤ) : ZMod n)) _ _ fun y => ?_
  simp only [Equiv.coe_addRight]
  have : (fun a => (y + fun a : Fin D => ((-l.getD a 0 : ℤ) : ZMod n)) a + ((l.getD a 0 : ℤ) : ZMod n)) = y := by
    funext a
    simp
  rw [this]
  simp only [Pi.add_def]
  ring

theorem table_closed : ∀ e ∈ Tables.predefined, (e.2.2.map fun l => l.map fun z => -z).Perm e.2.2 := by
  decide +kernel

theorem laplace_even : ∀ e ∈ Tables.predefined, ∀ t ∈ secondTable (e.2.2.headD []).length e.2.2.length, ∀ l ∈ e.2.2,
    laplaceWeight t (e.2.2.headD []).length (l.map fun z => -z) = laplaceWeight t (e.2.2.headD []).length l := by
  decide +kernel

theorem first_odd : ∀ e ∈ Tables.predefined, 2 ≤ (e.2.2.headD []).length → ∀ t ∈ firstTable (e.2.2.headD []).length e.2.2.length,
    ∀ r ∈ [(0, id), (1, rotate01), (2, rotate12)], ∀ l ∈ e.2.2, firstWeight t (r.2 (l.map fun z => -z)) = -firstWeight t (r.2 l) := by
  decide +kernel

/-- **C93 (Laplacian on periodic domains).** The Laplacian is symmetric; in particular it adds up to zero. -/
theorem C93_laplacian_symmetric [CharZero K] [NeZero n] : ∀ e ∈ Tables.predefined, (secondTable (e.2.2.headD []).length e.2.2.length).isSome →
    ∀ f : (Fin (e.2.2.headD []).length → ZMod n) → K, ∃ Lf : (Fin (e.2.2.headD []).length → ZMod n) → K,
      (∀ y, laplacianSymbolic e.2.2 (fun x => f fun a => (x a : ZMod n)) (place y) = .ok (Lf y)) ∧ ∑ y, Lf y = 0 ∧
      ∀ g Lg : (Fin (e.2.2.headD []).length → ZMod n) → K, (∀ y, laplacianSymbolic e.2.2 (fun x => g fun a => (x a : ZMod n)) (place y) = .ok (Lg y)) →
        ∑ y, g y * Lf y = ∑ y, f y * Lg y := by
  intro e he ht f
  have h0 := fun x => C93_laplacian (K := K) e he ht 1 (by simp) x
  obtain ⟨t, ht⟩ := Option.isSome_iff_exists.1 ht
  simp only [laplacianSymbolic, ht, apply_sum] at h0 ⊢
  have key : ∀ f g : (Fin (e.2.2.headD []).length → ZMod n) → K, _ := parts (K := K) e.2.2 _ _ (table_closed e he) (laplace_even e he t ht)
  refine ⟨_, fun y => rfl, ?_, ?_⟩
  · have := key f (fun _ => 1)
    simp only [one_mul] at this
    rw [this]
    refine Finset.sum_eq_zero fun y _ => ?_
    have h1 := Except.ok.inj (h0 (place y))
    have h2 : Spec.sample (1 : MvPolynomial (Fin (e.2.2.headD []).length) K) = fun _ => 1 := by
      funext x
      exact map_one _
    rw [h2] at h1
    rw [h1]
    simp [Spec.sample, Spec.laplace]
  · intro g Lg hg
    rw [key]
    refine Finset.sum_congr rfl fun y _ => ?_
    rw [Except.ok.inj (hg y)]

/-- **C93 (gradient on periodic domains).** The components of the gradient are antisymmetric; in particular they add up to zero. -/
theorem C93_gradient_antisymmetric [CharZero K] [NeZero n] : ∀ e ∈ Tables.predefined, 2 ≤ (e.2.2.headD []).length → (firstTable (e.2.2.headD []).length e.2.2.length).isSome →
    ∀ f : (Fin (e.2.2.headD []).length → ZMod n) → K, ∃ Gf : (Fin (e.2.2.headD []).length → ZMod n) → List K,
      (∀ y, isotropicGradientSymbolic e.2.2 (fun x => f fun a => (x a : ZMod n)) (place y) = .ok (Gf y)) ∧ (∀ k, ∑ y, (Gf y).getD k 0 = 0) ∧
      ∀ (g : (Fin (e.2.2.headD []).length → ZMod n) → K) (Gg : (Fin (e.2.2.headD []).length → ZMod n) → List K),
        (∀ y, isotropicGradientSymbolic e.2.2 (fun x => g fun a => (x a : ZMod n)) (place y) = .ok (Gg y)) →
        ∀ k, ∑ y, g y * (Gf y).getD k 0 = -∑ y, f y * (Gg y).getD k 0 := by
  intro e he hD ht f
  have h1 : ∀ k, ∀ x : Vec (e.2.2.headD []).length, ∃ g, isotropicGradientSymbolic (K := K) e.2.2 (fun _ => 1) x = .ok g ∧ g.getD k 0 = 0 := by
    intro k x
    obtain ⟨g, hg, h3, hk, h2⟩ := C93_gradient (K := K) e he hD ht 1 (by simp) x
    have e1 : Spec.sample (1 : MvPolynomial (Fin (e.2.2.headD []).length) K) = fun _ => 1 := by
      funext x
      exact map_one _
    rw [e1] at hg
    refine ⟨g, hg, ?_⟩
    by_cases hkD : k < (e.2.2.headD []).length
    · rw [hk ⟨k, hkD⟩]
      simp [Spec.sample, Spec.laplace]
    · rcases Nat.lt_or_ge k 3 with h | h
      · obtain ⟨rfl, h'⟩ : k = 2 ∧ (e.2.2.headD []).length = 2 := by omega
        exact h2 h'
      · simp [List.getD_eq_getElem?_getD, List.getElem?_eq_none (by omega : g.length ≤ k)]
  suffices h : ∃ Gf : (Fin (e.2.2.headD []).length → ZMod n) → List K,
      (∀ y, isotropicGradientSymbolic e.2.2 (fun x => f fun a => (x a : ZMod n)) (place y) = .ok (Gf y)) ∧
      ∀ (g : (Fin (e.2.2.headD []).length → ZMod n) → K) (Gg : (Fin (e.2.2.headD []).length → ZMod n) → List K),
        (∀ y, isotropicGradientSymbolic e.2.2 (fun x => g fun a => (x a : ZMod n)) (place y) = .ok (Gg y)) →
        ∀ k, ∑ y, g y * (Gf y).getD k 0 = -∑ y, f y * (Gg y).getD k 0 by
    obtain ⟨Gf, hG, h⟩ := h
    refine ⟨Gf, hG, fun k => ?_, h⟩
    choose G hg hz using fun y => h1 k (place (n := n) y)
    have := h (fun _ => 1) G hg k
    simpa only [hz, one_mul, mul_zero, Finset.sum_const_zero, neg_zero] using this
  obtain ⟨t, ht⟩ := Option.isSome_iff_exists.1 ht
  simp only [isotropicGradientSymbolic, ht, if_neg (by omega : ¬ (e.2.2.headD []).length < 2)]
  have key : ∀ r ∈ [(0, id), (1, rotate01), (2, rotate12)], ∀ f g : (Fin (e.2.2.headD []).length → ZMod n) → K,
      ∑ y, g y * apply e.2.2 (fun l => firstWeight t (r.2 l)) (fun x => f fun a => (x a : ZMod n)) (place y) =
        -∑ y, f y * apply e.2.2 (fun l => firstWeight t (r.2 l)) (fun x => g fun a => (x a : ZMod n)) (place y) := by
    intro r hr f g
    rw [parts (K := K) e.2.2 _ _ (table_closed e he) (first_odd e he hD t ht r hr), ← Finset.sum_neg_distrib]
    refine Finset.sum_congr rfl fun y _ => ?_
    rw [← mul_neg]
    congr 1
    simp only [apply, Rat.cast_neg, neg_mul]
    rw [List.sum_neg, List.map_map]
    rfl
  refine ⟨_, fun y => rfl, fun g Gg hg k => ?_⟩
  simp only [← fun y => Except.ok.inj (hg y)]
  rcases k with _ | _ | _ | k
  · exact key (0, id) (by simp) f g
  · exact key (1, rotate01) (by simp) f g
  · simp only [List.getD_cons_succ, List.getD_cons_zero]
    split_ifs
    · exact key (2, rotate12) (by simp) f g
    · simp
  · simp

end Periodic

/-! ## Supported stencils -/

/-- **C93 (errors).** The predefined stencils with a Laplacian are those with 9 directions in two dimensions and 15, 19 and 27 in three; they have a gradient, too.  Without
any stencil of these sizes a `ValueError` is raised, in one dimension an `IndexError` by the gradient. -/
theorem C93_errors (st : List (List ℤ)) (f : Vec D → K) (x : Vec D) :
    ((∃ v, laplacianSymbolic st f x = .ok v) ↔ (D, st.length) ∈ [(2, 9), (3, 15), (3, 19), (3, 27)]) ∧
    (laplacianSymbolic st f x = .error .valueError ↔ (D, st.length) ∉ [(2, 9), (3, 15), (3, 19), (3, 27)]) ∧
    ((∃ g, isotropicGradientSymbolic st f x = .ok g) ↔ (D, st.length) ∈ [(2, 9), (3, 15), (3, 19), (3, 27)]) ∧
    (isotropicGradientSymbolic st f x = .error .valueError ↔ 2 ≤ D ∧ (D, st.length) ∉ [(2, 9), (3, 15), (3, 19), (3, 27)]) ∧
    (isotropicGradientSymbolic st f x = .error .indexError ↔ D < 2) := by
  have hs : (secondTable D st.length).isSome ↔ (D, st.length) ∈ [(2, 9), (3, 15), (3, 19), (3, 27)] := by
    unfold secondTable
    split <;> simp_all
  have hf : (firstTable D st.length).isSome ↔ (D, st.length) ∈ [(2, 9), (3, 15), (3, 19), (3, 27)] := by
    unfold firstTable
    split <;> simp_all
  have hD : (D, st.length) ∈ [(2, 9), (3, 15), (3, 19), (3, 27)] → 2 ≤ D := by
    simp only [List.mem_cons, Prod.mk.injEq, List.not_mem_nil, or_false]
    omega
  obtain ⟨P, hP⟩ : ∃ P, P = ((D, st.length) ∈ [(2, 9), (3, 15), (3, 19), (3, 27)]) := ⟨_, rfl⟩
  simp only [← hP] at hs hf hD ⊢
  unfold laplacianSymbolic isotropicGradientSymbolic
  rcases h2 : secondTable D st.length with _ | t2 <;> rcases h1 : firstTable D st.length with _ | t1 <;> simp only [h1, h2, Option.isSome_none, Option.isSome_some] at hs hf
  · have : ¬ P := by simpa using hs
    by_cases h : D < 2 <;> simp [h, this]; omega
  · exact absurd (hs.2 (hf.1 trivial)) (by simp)
  · exact absurd (hf.2 (hs.1 trivial)) (by simp)
  · have hp : P := by simpa using hs
    have := hD hp
    rw [if_neg (by omega)]
    simp [hp]
    omega

/-- On D3Q19 the Laplacian of x⁴ + y is 12 x² and the error two. -/
example : ∃ e ∈ Tables.predefined, (secondTable (e.2.2.headD []).length e.2.2.length).isSome ∧ e.2.2.length = 19 ∧
    laplacianSymbolic e.2.2 (fun x : Vec 3 => (x 0 : ℚ) ^ 4 + x 1) ![3, 1, 0] = .ok (12 * 3 ^ 2 + 2) := by
  refine ⟨_, (by decide +kernel : ("D3Q19", "walberla", Tables.D3Q19_walberla) ∈ Tables.predefined), ?_⟩
  decide +kernel

/-- With 15 directions x²y² has Laplacian zero at the origin and an error of 11 / 9 instead of 2 / 3. -/
example : ∃ e ∈ Tables.predefined, e.2.2.length = 15 ∧ laplacianSymbolic e.2.2 (fun x : Vec 3 => (x 0 : ℚ) ^ 2 * (x 1 : ℚ) ^ 2) 0 = .ok (11 / 9) ∧
    laplacianSymbolic e.2.2 (fun x : Vec 3 => (x 0 : ℚ) ^ 4) 0 = .ok 2 := by
  decide +kernel

/-- The gradient on D2Q9 -/
example : ∃ e ∈ Tables.predefined, e.2.2.length = 9 ∧ isotropicGradientSymbolic e.2.2 (fun x : Vec 2 => (x 0 : ℚ) ^ 2 * (x 1 : ℚ)) ![2, 5] = .ok [20, 4 + 1 / 3, 0] := by
  decide +kernel

/-- On a periodic domain of three cells in each direction -/
example : ∃ e ∈ Tables.predefined, (e.2.2.headD []).length = 2 ∧ (secondTable (e.2.2.headD []).length e.2.2.length).isSome ∧
    ∃ f : (Fin 2 → ZMod 3) → ℚ, ∃ y : Fin 2 → ZMod 3, laplacianSymbolic e.2.2 (fun x => f fun a => (x a : ZMod 3)) (place y) ≠ .ok 0 := by
  obtain ⟨e, he, h⟩ : ∃ e ∈ Tables.predefined, (e.2.2.headD []).length = 2 ∧ (secondTable (e.2.2.headD []).length e.2.2.length).isSome ∧
    laplacianSymbolic e.2.2 (fun x : Vec 2 => if (fun a => (x a : ZMod 3)) = 0 then (1 : ℚ) else 0) (place (n := 3) 0) ≠ .ok 0 := by decide +kernel
  exact ⟨e, he, h.1, h.2.1, fun z => if z = 0 then 1 else 0, 0, h.2.2⟩

end Derivatives
end Lbm
