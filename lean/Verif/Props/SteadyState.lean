import Verif.SteadyState
import Verif.Props.ChapmanEnskog
import Mathlib.RingTheory.PowerSeries.Exp
import Mathlib.Algebra.MvPolynomial.PDeriv
import Mathlib.Tactic.LinearCombination
import Mathlib.Tactic.FieldSimp
import Mathlib.Tactic.Module

/-!
# C69: Steady state Chapman–Enskog analysis
-/

namespace Lbm
namespace SteadyState

open scoped BigOperators

section
variable {K V : Type} [Field K] [AddCommGroup V] [Module K V]

theorem hierarchy_zero (order : ℕ) (T inv : V →ₗ[K] V) (F f0 : V) : hierarchy order T inv F f0 0 = f0 := by
  rw [hierarchy]

theorem hierarchy_succ (order : ℕ) (T inv : V →ₗ[K] V) (F f0 : V) (n : ℕ) (hn : n + 1 ≤ order) :
    hierarchy order T inv F f0 (n + 1) = -inv ((∑ k ∈ Finset.range (n + 1),
      (1 / ((k + 1).factorial : K)) • (T ^ (k + 1)) (hierarchy order T inv F f0 (n - k))) - if n = 0 then F else 0) := by
  rw [hierarchy, Finset.sum_range]
  congr 3
  refine Finset.sum_congr rfl fun k _ => ?_
  rw [if_pos (by omega)]

theorem taylored_zero (order : ℕ) (T coll : V →ₗ[K] V) (F : V) (f : ℕ → V) : taylored order T coll F f 0 = 0 := by
  simp [taylored, expandPdf]

theorem taylored_succ (order : ℕ) (T coll : V →ₗ[K] V) (F : V) (f : ℕ → V) (n : ℕ) (hn : n + 1 ≤ order) :
    taylored order T coll F f (n + 1) = (∑ k ∈ Finset.range (n + 1),
      (1 / ((k + 1).factorial : K)) • (T ^ (k + 1)) (f (n - k))) + coll (f (n + 1)) - if n = 0 then F else 0 := by
  unfold taylored
  have h1 : (∑ k ∈ Finset.range order, if k + 1 ≤ n + 1 then
      (1 / ((k + 1).factorial : K)) • (T ^ (k + 1)) (expandPdf order f (n + 1 - (k + 1))) else 0) =
      ∑ k ∈ Finset.range (n + 1), (1 / ((k + 1).factorial : K)) • (T ^ (k + 1)) (f (n - k)) := by
    rw [← Finset.sum_filter]
    refine Finset.sum_congr ?_ fun k hk => ?_
    · ext k; simp only [Finset.mem_filter, Finset.mem_range]; omega
    · have := Finset.mem_range.1 hk
      have e : n + 1 - (k + 1) = n - k := by omega
      rw [e, expandPdf, if_pos (by omega)]
  rw [h1, expandPdf, if_pos (by omega)]
  simp

/-- C69. The hierarchy solves the expanded equation in every order up to `order`. -/
theorem C69_hierarchy_solves (order : ℕ) (T coll inv : V →ₗ[K] V) (F f0 : V) (h : ∀ v, coll (inv v) = v) (n : ℕ)
    (hn : n ≤ order) : taylored order T coll F (hierarchy order T inv F f0) n = 0 := by
  cases n with
  | zero => exact taylored_zero ..
  | succ n =>
    rw [taylored_succ _ _ _ _ _ _ hn, hierarchy_succ _ _ _ _ _ _ hn, map_neg, h]
    abel

/-- C69. It is the only one that begins with the equilibrium. -/
theorem C69_hierarchy_unique (order : ℕ) (T coll inv : V →ₗ[K] V) (F : V) (f : ℕ → V) (h : ∀ v, inv (coll v) = v)
    (hf : ∀ n ≤ order, taylored order T coll F f n = 0) (n : ℕ) (hn : n ≤ order) :
    f n = hierarchy order T inv F (f 0) n := by
  induction n using Nat.strong_induction_on with
  | _ n ih =>
    cases n with
    | zero => rw [hierarchy_zero]
    | succ n =>
      have h1 := hf (n + 1) hn
      rw [taylored_succ _ _ _ _ _ _ hn] at h1
      rw [hierarchy_succ _ _ _ _ _ _ hn]
      have h2 : ∀ k ∈ Finset.range (n + 1), (1 / ((k + 1).factorial : K)) • (T ^ (k + 1)) (f (n - k)) =
          (1 / ((k + 1).factorial : K)) • (T ^ (k + 1)) (hierarchy order T inv F (f 0) (n - k)) := fun k hk => by
        rw [← ih (n - k) (by omega) (by omega)]
      rw [Finset.sum_congr rfl h2] at h1
      have h3 : f (n + 1) = inv (coll (f (n + 1))) := (h _).symm
      rw [h3, ← map_neg]
      congr 1
      rw [eq_neg_iff_add_eq_zero]
      refine Eq.trans ?_ h1
      abel

/-- C69. If the derivative lowers a degree, and equilibrium and force are of small enough degree, the sum of the hierarchy
solves the full steady equation, all orders together. -/
theorem C69_exact (order : ℕ) (T coll inv : V →ₗ[K] V) (F f0 : V) (h : ∀ v, coll (inv v) = v)
    (W : ℕ → Submodule K V) (hW : Monotone W) (h0 : W 0 = ⊥) (hT : ∀ j v, v ∈ W (j + 1) → T v ∈ W j)
    (hinv : ∀ j v, v ∈ W j → inv v ∈ W j) (hf0 : f0 ∈ W (order + 1)) (hF : F ∈ W order) :
    let g := ∑ n ∈ Finset.range (order + 1), hierarchy order T inv F f0 n
    ∀ N, order ≤ N → ∑ k ∈ Finset.range (N + 1), (1 / (k.factorial : K)) • (T ^ k) g = g - coll (g - f0) + F := by
  intro g N hN
  set f := hierarchy order T inv F f0 with hf
  have hTz : ∀ v, v ∈ W 0 → v = 0 := fun v hv => by rw [h0] at hv; exact (Submodule.mem_bot K).1 hv
  have hTk : ∀ k j v, v ∈ W (j + k) → (T ^ k) v ∈ W j := by
    intro k
    induction k with
    | zero => intro j v hv; exact hv
    | succ k ih =>
      intro j v hv
      rw [pow_succ']
      exact hT j _ (ih (j + 1) v (by rw [show j + 1 + k = j + (k + 1) by omega]; exact hv))
  have hmem : ∀ n, n ≤ order → f n ∈ W (order + 1 - n) := by
    intro n
    induction n using Nat.strong_induction_on with
    | _ n ih =>
      intro hn
      cases n with
      | zero => rw [hf, hierarchy_zero]; exact hf0
      | succ n =>
        rw [hf, hierarchy_succ _ _ _ _ _ _ hn]
        refine Submodule.neg_mem _ (hinv _ _ (Submodule.sub_mem _ (Submodule.sum_mem _ fun k hk => ?_) ?_))
        · have hk' := Finset.mem_range.1 hk
          refine Submodule.smul_mem _ _ (hTk _ _ _ ?_)
          rw [show order + 1 - (n + 1) + (k + 1) = order + 1 - (n - k) by omega]
          exact ih (n - k) (by omega) (by omega)
        · split_ifs with hz
          · rw [hz]; exact hF
          · exact Submodule.zero_mem _
  have hvan : ∀ k m, m ≤ order → order + 1 ≤ m + k → (T ^ k) (f m) = 0 := by
    intro k m hm hk
    refine hTz _ (hTk k 0 _ (hW ?_ (hmem m hm)))
    omega
  -- the sum of the equations of all orders
  have hsum : ∑ n ∈ Finset.range (order + 1), taylored order T coll F f n = 0 :=
    Finset.sum_eq_zero fun n hn => C69_hierarchy_solves order T coll inv F f0 h n (by
      have := Finset.mem_range.1 hn; omega)
  have hexp : ∀ m, m ≤ order → expandPdf order f m = f m := fun m hm => by rw [expandPdf, if_pos (by omega)]
  have hdouble : ∑ n ∈ Finset.range (order + 1), ∑ k ∈ Finset.range order, (if k + 1 ≤ n then
      (1 / ((k + 1).factorial : K)) • (T ^ (k + 1)) (expandPdf order f (n - (k + 1))) else 0) =
      ∑ k ∈ Finset.range order, (1 / ((k + 1).factorial : K)) • (T ^ (k + 1)) g := by
    rw [Finset.sum_comm]
    refine Finset.sum_congr rfl fun k hk => ?_
    have hk' := Finset.mem_range.1 hk
    simp only [g, map_sum, Finset.smul_sum]
    have e1 : ∑ n ∈ Finset.range (order + 1), (if k + 1 ≤ n then
        (1 / ((k + 1).factorial : K)) • (T ^ (k + 1)) (expandPdf order f (n - (k + 1))) else 0) =
        ∑ m ∈ Finset.range (order - k), (1 / ((k + 1).factorial : K)) • (T ^ (k + 1)) (f m) := by
      have : order + 1 = (k + 1) + (order - k) := by omega
      rw [this, Finset.sum_range_add]
      rw [Finset.sum_eq_zero, zero_add]
      · refine Finset.sum_congr rfl fun m hm => ?_
        have := Finset.mem_range.1 hm
        rw [if_pos (by omega), show k + 1 + m - (k + 1) = m by omega, hexp m (by omega)]
      · intro n hn
        have := Finset.mem_range.1 hn
        rw [if_neg (by omega)]
    have e2 : order + 1 = (order - k) + (k + 1) := by omega
    have e3 : ∑ m ∈ Finset.range (k + 1), (1 / ((k + 1).factorial : K)) • (T ^ (k + 1)) (f (order - k + m)) = 0 := by
      refine Finset.sum_eq_zero fun m hm => ?_
      have := Finset.mem_range.1 hm
      rw [hvan (k + 1) (order - k + m) (by omega) (by omega), smul_zero]
    rw [e1, e2, Finset.sum_range_add, e3, add_zero]
  have hcoll : ∑ n ∈ Finset.range (order + 1), coll (expandPdf order f n - if n = 0 then f 0 else 0) = coll (g - f0) := by
    rw [← map_sum, Finset.sum_sub_distrib]
    congr 2
    · exact Finset.sum_congr rfl fun n hn => hexp n (by have := Finset.mem_range.1 hn; omega)
    · rw [Finset.sum_ite_eq']
      simp [hf, hierarchy_zero]
  have hforce : ∑ n ∈ Finset.range (order + 1), (if n = 1 then F else 0) = F := by
    rw [Finset.sum_ite_eq']
    by_cases ho : order = 0
    · subst ho
      rw [hTz F hF]; simp
    · rw [if_pos (by rw [Finset.mem_range]; omega)]
  have hall : ∑ k ∈ Finset.range order, (1 / ((k + 1).factorial : K)) • (T ^ (k + 1)) g + coll (g - f0) - F = 0 := by
    rw [← hsum]
    unfold taylored
    rw [Finset.sum_sub_distrib, Finset.sum_add_distrib, hdouble, hcoll, hforce]
  have htail : ∀ k, order < k → (T ^ k) g = 0 := by
    intro k hk
    simp only [g, map_sum]
    exact Finset.sum_eq_zero fun m hm => hvan k m (by have := Finset.mem_range.1 hm; omega) (by omega)
  have hcut : ∑ k ∈ Finset.range (N + 1), (1 / (k.factorial : K)) • (T ^ k) g =
      ∑ k ∈ Finset.range (order + 1), (1 / (k.factorial : K)) • (T ^ k) g := by
    obtain ⟨m, rfl⟩ := Nat.exists_eq_add_of_le hN
    have e3 : ∑ k ∈ Finset.range m, (1 / ((order + 1 + k).factorial : K)) • (T ^ (order + 1 + k)) g = 0 :=
      Finset.sum_eq_zero fun k _ => by rw [htail _ (by omega), smul_zero]
    rw [show order + m + 1 = order + 1 + m by omega, Finset.sum_range_add, e3, add_zero]
  rw [hcut, Finset.sum_range_succ']
  simp only [Nat.factorial_zero, Nat.cast_one, one_div, inv_one, pow_zero, Module.End.one_apply, one_smul]
  simp only [one_div] at hall
  rw [← sub_eq_zero]
  refine Eq.trans ?_ hall
  abel

end

/-! ### Polynomial fields -/

section
variable {K : Type} [Field K] [CharZero K] {D Q : ℕ}
open MvPolynomial

/-- The field moved by `c`: `p(x + c)`. -/
noncomputable def Spec.shifted (c : Fin D → K) (p : MvPolynomial (Fin D) K) : MvPolynomial (Fin D) K :=
  aeval (fun a => X a + C (c a)) p

/-- The derivative along `c`. -/
noncomputable def along (c : Fin D → K) : Derivation K (MvPolynomial (Fin D) K) (MvPolynomial (Fin D) K) :=
  ∑ a, c a • pderiv a

omit [CharZero K] in
theorem along_apply (c : Fin D → K) (p : MvPolynomial (Fin D) K) : along c p = ∑ a, c a • pderiv a p := by
  have h := map_sum (Derivation.coeFnAddMonoidHom (R := K) (A := MvPolynomial (Fin D) K) (M := MvPolynomial (Fin D) K))
    (fun a => c a • pderiv a) Finset.univ
  have h' := congrFun h p
  rw [Finset.sum_apply] at h'
  exact h'

omit [CharZero K] in
theorem along_X (c : Fin D → K) (a : Fin D) : along c (X a) = C (c a) := by
  rw [along_apply, Finset.sum_eq_single a]
  · simp [smul_eq_C_mul]
  · intro b _ hb
    simp [pderiv_X_of_ne (Ne.symm hb)]
  · simp

/-- `p(x + t c)` as polynomial in `t`. -/
noncomputable def line (c : Fin D → K) : MvPolynomial (Fin D) K →ₐ[K] Polynomial (MvPolynomial (Fin D) K) :=
  aeval fun a => Polynomial.C (X a) + Polynomial.C (C (c a)) * Polynomial.X

omit [CharZero K] in
theorem line_derivative (c : Fin D → K) (p : MvPolynomial (Fin D) K) :
    Polynomial.derivative (line c p) = line c (along c p) := by
  induction p using MvPolynomial.induction_on with
  | C k =>
    have h1 : along c (C k) = 0 := by
      have : (C k : MvPolynomial (Fin D) K) = algebraMap K _ k := rfl
      rw [this, Derivation.map_algebraMap]
    rw [h1, map_zero]
    unfold line
    rw [aeval_C]
    have : algebraMap K (Polynomial (MvPolynomial (Fin D) K)) k = Polynomial.C (C k) := rfl
    rw [this, Polynomial.derivative_C]
  | add p q hp hq => simp only [map_add, hp, hq]
  | mul_X p a hp =>
    rw [map_mul, Polynomial.derivative_mul, hp, Derivation.leibniz, map_add, along_X, smul_eq_mul, smul_eq_mul, map_mul,
      map_mul]
    have h1 : line c (X a) = Polynomial.C (X a) + Polynomial.C (C (c a)) * Polynomial.X := by
      unfold line; rw [aeval_X]
    have h2 : line c (C (c a)) = Polynomial.C (C (c a)) := by
      unfold line; rw [aeval_C]; rfl
    rw [h1, h2]
    simp only [Polynomial.derivative_add, Polynomial.derivative_C, Polynomial.derivative_mul, Polynomial.derivative_X]
    ring

omit [CharZero K] in
theorem line_eval_zero (c : Fin D → K) (p : MvPolynomial (Fin D) K) : (line c p).eval 0 = p := by
  induction p using MvPolynomial.induction_on with
  | C k =>
    unfold line
    rw [aeval_C]
    have : algebraMap K (Polynomial (MvPolynomial (Fin D) K)) k = Polynomial.C (C k) := rfl
    rw [this, Polynomial.eval_C]
  | add p q hp hq => rw [map_add, Polynomial.eval_add, hp, hq]
  | mul_X p a hp =>
    rw [map_mul, Polynomial.eval_mul, hp]
    congr 1
    unfold line
    rw [aeval_X]
    simp

omit [CharZero K] in
theorem line_eval_one (c : Fin D → K) (p : MvPolynomial (Fin D) K) : (line c p).eval 1 = Spec.shifted c p := by
  unfold Spec.shifted
  induction p using MvPolynomial.induction_on with
  | C k =>
    unfold line
    rw [aeval_C, aeval_C]
    have : algebraMap K (Polynomial (MvPolynomial (Fin D) K)) k = Polynomial.C (C k) := rfl
    rw [this, Polynomial.eval_C]
    rfl
  | add p q hp hq => rw [map_add, Polynomial.eval_add, hp, hq, map_add]
  | mul_X p a hp =>
    rw [map_mul, Polynomial.eval_mul, hp, map_mul]
    congr 1
    unfold line
    rw [aeval_X, aeval_X]
    simp

omit [CharZero K] in
theorem line_iterate (c : Fin D → K) (k : ℕ) (p : MvPolynomial (Fin D) K) :
    Polynomial.derivative^[k] (line c p) = line c ((along c)^[k] p) := by
  induction k generalizing p with
  | zero => rfl
  | succ k ih => rw [Function.iterate_succ_apply, Function.iterate_succ_apply, line_derivative, ih]

theorem line_coeff (c : Fin D → K) (k : ℕ) (p : MvPolynomial (Fin D) K) :
    (line c p).coeff k = (1 / (k.factorial : K)) • (along c)^[k] p := by
  have h1 := Polynomial.coeff_iterate_derivative (p := line c p) (k := k) 0
  rw [line_iterate, Polynomial.coeff_zero_eq_eval_zero, line_eval_zero, zero_add, Nat.descFactorial_self] at h1
  have hk : ((k.factorial : ℕ) : K) ≠ 0 := by exact_mod_cast k.factorial_ne_zero
  rw [h1, ← Nat.cast_smul_eq_nsmul K, smul_smul, one_div, inv_mul_cancel₀ hk, one_smul]

/-- The Taylor formula in several variables. -/
theorem shifted_eq_sum (c : Fin D → K) (p : MvPolynomial (Fin D) K) (n : ℕ)
    (h : ∀ k, n < k → (along c)^[k] p = 0) :
    Spec.shifted c p = ∑ k ∈ Finset.range (n + 1), (1 / (k.factorial : K)) • (along c)^[k] p := by
  have hd : (line c p).natDegree < n + 1 := by
    rw [Nat.lt_succ_iff, Polynomial.natDegree_le_iff_coeff_eq_zero]
    intro k hk
    rw [line_coeff, h k hk, smul_zero]
  rw [← line_eval_one, Polynomial.eval_eq_sum_range' hd]
  refine Finset.sum_congr rfl fun k _ => ?_
  rw [line_coeff, one_pow, mul_one]

/-- Populations whose fields have a degree below `j`. -/
def degreeBelow (j : ℕ) : Submodule K (Fin Q → MvPolynomial (Fin D) K) where
  carrier := {f | ∀ q m, j ≤ m.degree → coeff m (f q) = 0}
  zero_mem' := fun q m _ => by simp
  add_mem' := fun hf hg q m hm => by rw [Pi.add_apply, coeff_add, hf q m hm, hg q m hm, add_zero]
  smul_mem' := fun k f hf q m hm => by rw [Pi.smul_apply, coeff_smul, hf q m hm, smul_zero]

omit [CharZero K] in
theorem mem_degreeBelow (j : ℕ) (f : Fin Q → MvPolynomial (Fin D) K) :
    f ∈ degreeBelow j ↔ ∀ q m, j ≤ m.degree → coeff m (f q) = 0 := Iff.rfl

omit [CharZero K] in
theorem degreeBelow_of_totalDegree (j : ℕ) (f : Fin Q → MvPolynomial (Fin D) K) (h : ∀ q, (f q).totalDegree ≤ j) :
    f ∈ degreeBelow (j + 1) := by
  intro q m hm
  by_contra hne
  have h1 := le_totalDegree (mem_support_iff.2 hne)
  have h2 : m.degree = m.sum fun _ e => e := rfl
  have := h q
  omega

/-- The derivatives of the fields. -/
noncomputable def partials : Fin D → (MvPolynomial (Fin D) K →ₗ[K] MvPolynomial (Fin D) K) := fun a => (pderiv a).toLinearMap

omit [CharZero K] in
theorem transport_apply (c : Fin Q → Fin D → K) (f : Fin Q → MvPolynomial (Fin D) K) (q : Fin Q) :
    transport c partials f q = along (c q) (f q) := by
  rw [along_apply]
  simp [transport, partials]

omit [CharZero K] in
theorem transport_pow (c : Fin Q → Fin D → K) (k : ℕ) (f : Fin Q → MvPolynomial (Fin D) K) (q : Fin Q) :
    (transport c partials ^ k) f q = (along (c q))^[k] (f q) := by
  induction k generalizing f with
  | zero => rfl
  | succ k ih =>
    rw [pow_succ, Module.End.mul_apply, ih, transport_apply, Function.iterate_succ_apply]

omit [CharZero K] in
theorem transport_degree (c : Fin Q → Fin D → K) (j : ℕ) (f : Fin Q → MvPolynomial (Fin D) K) (h : f ∈ degreeBelow (j + 1)) :
    transport c partials f ∈ degreeBelow j := by
  intro q m hm
  rw [transport_apply, along_apply, coeff_sum]
  refine Finset.sum_eq_zero fun a _ => ?_
  rw [coeff_smul, coeff_pderiv, h q, zero_mul, smul_zero]
  rw [map_add, Finsupp.degree_single]
  omega

omit [CharZero K] in
theorem applyMatrix_apply {A : Type} [CommRing A] [Algebra K A] (M : Matrix (Fin Q) (Fin Q) K) (f : Fin Q → A) (q : Fin Q) :
    applyMatrix M f q = ∑ r, M q r • f r := by simp [applyMatrix]

omit [CharZero K] in
theorem applyMatrix_degree (M : Matrix (Fin Q) (Fin Q) K) (j : ℕ) (f : Fin Q → MvPolynomial (Fin D) K) (h : f ∈ degreeBelow j) :
    applyMatrix M f ∈ degreeBelow j := by
  intro q m hm
  rw [applyMatrix_apply, coeff_sum]
  exact Finset.sum_eq_zero fun r _ => by rw [coeff_smul, h r m hm, smul_zero]

omit [CharZero K] in
theorem applyMatrix_mul {A : Type} [CommRing A] [Algebra K A] (M N : Matrix (Fin Q) (Fin Q) K) (h : M * N = 1) (f : Fin Q → A) :
    applyMatrix M (applyMatrix N f) = f := by
  funext q
  rw [applyMatrix_apply]
  simp only [applyMatrix_apply, Finset.smul_sum, smul_smul]
  rw [Finset.sum_comm]
  simp only [← Finset.sum_smul]
  have : ∀ r, ∑ s, M q s * N s r = if q = r then 1 else 0 := fun r => by
    rw [← Matrix.mul_apply, h, Matrix.one_apply]
  simp only [this, ite_smul, one_smul, zero_smul, Finset.sum_ite_eq, Finset.mem_univ, if_true]

/-- C69. On fields that are polynomials of at most the order of the analysis, the sum of the hierarchy is a steady state of the
lattice Boltzmann equation with collision matrix `M` and force `F`, exactly: streaming what the collision returns gives the
same populations.  The matrices need not commute with the derivatives. -/
theorem C69_steady_state (c : Fin Q → Fin D → K) (M N : Matrix (Fin Q) (Fin Q) K) (h : M * N = 1) (order : ℕ)
    (f0 F : Fin Q → MvPolynomial (Fin D) K) (hf0 : f0 ∈ degreeBelow (order + 1)) (hF : F ∈ degreeBelow order) :
    let g := ∑ n ∈ Finset.range (order + 1), hierarchy order (transport c partials) (applyMatrix N) F f0 n
    ∀ q, Spec.shifted (c q) (g q) = g q - ∑ r, M q r • (g r - f0 r) + F q := by
  intro g q
  have hmono : Monotone (degreeBelow : ℕ → Submodule K (Fin Q → MvPolynomial (Fin D) K)) := fun i j hij f hf q m hm =>
    hf q m (hij.trans hm)
  have hzero : (degreeBelow 0 : Submodule K (Fin Q → MvPolynomial (Fin D) K)) = ⊥ := by
    rw [Submodule.eq_bot_iff]
    intro f hf
    funext q
    ext m
    exact hf q m (Nat.zero_le _)
  have key := C69_exact order (transport c partials) (applyMatrix M) (applyMatrix N) F f0
    (applyMatrix_mul M N h) degreeBelow hmono hzero (transport_degree c) (applyMatrix_degree N) hf0 hF
  have hg : ∀ N', order ≤ N' → ∑ k ∈ Finset.range (N' + 1), (1 / (k.factorial : K)) • (transport c partials ^ k) g =
      g - applyMatrix M (g - f0) + F := key
  have hvan : ∀ k, order < k → (transport c partials ^ k) g = 0 := by
    intro k hk
    have h1 := hg k hk.le
    have h2 := hg (k - 1) (by omega)
    have hk1 : k - 1 + 1 = k := by omega
    rw [hk1] at h2
    rw [Finset.sum_range_succ, h2] at h1
    have h3 : (1 / (k.factorial : K)) • (transport c partials ^ k) g = 0 := by
      have := add_eq_left.1 h1
      exact this
    have hk : (1 / (k.factorial : K)) ≠ 0 := by
      have : ((k.factorial : ℕ) : K) ≠ 0 := by exact_mod_cast k.factorial_ne_zero
      exact one_div_ne_zero this
    exact (smul_eq_zero.1 h3).resolve_left hk
  rw [shifted_eq_sum (c q) (g q) order fun k hk => by rw [← transport_pow, hvan k hk]; rfl]
  have h1 := congrFun (hg order le_rfl) q
  rw [Finset.sum_apply] at h1
  simp only [Pi.smul_apply, transport_pow, Pi.add_apply, Pi.sub_apply, applyMatrix_apply] at h1
  exact h1

end

section
variable {K A : Type} [Field K] [CommRing A] [Algebra K A] {D Q : ℕ}

/-- C69. The continuity and the momentum equation (without shift) at `eps = 1` say that the populations have the same density and
momentum as the equilibrium. -/
theorem C69_conserved (order : ℕ) (f : ℕ → Fin Q → A) (c : Fin Q → Fin D → K) :
    (continuity (recombined order (1 : K) f) = 0 ↔ ∑ q, (∑ n ∈ Finset.range (order + 1), f n) q = ∑ q, f 0 q) ∧
    ∀ a, (momentum c 0 (recombined order (1 : K) f) a = 0 ↔
      ∑ q, c q a • (∑ n ∈ Finset.range (order + 1), f n) q = ∑ q, c q a • f 0 q) := by
  have h : ∀ φ : Fin Q → K, ∑ q, φ q • (∑ n ∈ Finset.range (order + 1), f n) q =
      ∑ q, φ q • recombined order (1 : K) f q + ∑ q, φ q • f 0 q := by
    intro φ
    rw [← Finset.sum_add_distrib]
    refine Finset.sum_congr rfl fun q _ => ?_
    rw [Finset.sum_range_succ', Pi.add_apply, smul_add]
    simp [recombined]
  constructor
  · have h1 := h fun _ => 1
    simp only [one_smul] at h1
    unfold continuity
    rw [h1, add_eq_right]
  · intro a
    unfold momentum
    rw [h fun q => c q a, add_eq_right, Pi.zero_apply, add_zero]

end

/-! ### One relaxation rate -/

/-- The coefficient of the `n`-th derivative in the `n`-th populations: `a_n = -B sum_k a_(n-k) / k!`. -/
def Spec.coeffs {K : Type} [Field K] (B : K) (n : ℕ) : K :=
  match n with
  | 0 => 1
  | n + 1 => -B * ∑ k : Fin (n + 1), 1 / ((k.val + 1).factorial : K) * Spec.coeffs B (n - k.val)
termination_by n
decreasing_by omega

section
variable {K V : Type} [Field K] [AddCommGroup V] [Module K V]
open Spec

theorem coeffs_succ (B : K) (n : ℕ) :
    coeffs B (n + 1) = -B * ∑ k ∈ Finset.range (n + 1), 1 / ((k + 1).factorial : K) * coeffs B (n - k) := by
  rw [coeffs, Finset.sum_range]

/-- C69. The coefficients are those of the power series `1 / (1 + B (exp(x) - 1))`: the steady state is
`(1 + B (exp(c.dx) - 1))⁻¹` applied to the equilibrium. -/
theorem C69_generating_function [CharZero K] [Algebra ℚ K] (B : K) :
    (1 + PowerSeries.C B * (PowerSeries.exp K - 1)) * PowerSeries.mk (coeffs B) = 1 := by
  ext n
  rw [add_mul, one_mul, map_add, PowerSeries.coeff_mk, mul_assoc, PowerSeries.coeff_C_mul, PowerSeries.coeff_mul]
  cases n with
  | zero =>
    simp [coeffs]
  | succ n =>
    rw [Finset.Nat.sum_antidiagonal_eq_sum_range_succ_mk, Finset.sum_range_succ']
    simp only [map_sub, PowerSeries.coeff_exp, PowerSeries.coeff_mk, PowerSeries.coeff_one]
    rw [coeffs_succ]
    have e : ∀ k ∈ Finset.range (n + 1), ((algebraMap ℚ K) (1 / ((k + 1).factorial : ℚ)) - if k + 1 = 0 then 1 else 0) *
        coeffs B (n + 1 - (k + 1)) = 1 / ((k + 1).factorial : K) * coeffs B (n - k) := fun k _ => by
      rw [if_neg (by omega), sub_zero, show n + 1 - (k + 1) = n - k by omega]
      simp
    rw [Finset.sum_congr rfl e]
    simp

theorem smul_pow (dt : K) (T : V →ₗ[K] V) (n : ℕ) (v : V) : ((dt • T) ^ n) v = dt ^ n • (T ^ n) v := by
  induction n generalizing v with
  | zero => simp
  | succ n ih =>
    rw [pow_succ, Module.End.mul_apply, ih, pow_succ, pow_succ T, Module.End.mul_apply, LinearMap.smul_apply, map_smul,
      smul_smul]

/-- C69. With one relaxation rate the populations of order `n` are a multiple of the `n`-th derivative of the equilibrium. -/
theorem C69_srt_hierarchy (order : ℕ) (B dt : K) (T : V →ₗ[K] V) (f0 : V) (n : ℕ) (hn : n ≤ order) :
    srtHierarchy order B dt T f0 n = (coeffs B n * dt ^ n) • (T ^ n) f0 := by
  unfold srtHierarchy
  induction n using Nat.strong_induction_on with
  | _ n ih =>
    cases n with
    | zero => rw [hierarchy_zero]; simp [coeffs]
    | succ n =>
      rw [hierarchy_succ _ _ _ _ _ _ hn]
      have e : ∀ k ∈ Finset.range (n + 1), (1 / ((k + 1).factorial : K)) • ((dt • T) ^ (k + 1))
          (hierarchy order (dt • T) (B • LinearMap.id) 0 f0 (n - k)) =
          (1 / ((k + 1).factorial : K) * coeffs B (n - k) * dt ^ (n + 1)) • (T ^ (n + 1)) f0 := fun k hk => by
        have hk' := Finset.mem_range.1 hk
        rw [ih (n - k) (by omega) (by omega), smul_pow, map_smul, smul_smul, smul_smul, ← Module.End.mul_apply, ← pow_add]
        have h1 : k + 1 + (n - k) = n + 1 := by omega
        rw [h1]
        congr 1
        have h2 : dt ^ (n + 1) = dt ^ (k + 1) * dt ^ (n - k) := by rw [← pow_add, h1]
        rw [h2]; ring
      rw [Finset.sum_congr rfl e, ← Finset.sum_smul]
      simp only [ite_self, sub_zero]
      rw [LinearMap.smul_apply, LinearMap.id_apply, smul_smul, ← neg_smul, coeffs_succ, ← Finset.sum_mul]
      congr 1
      ring

/-- C69. The first coefficients. -/
theorem C69_coefficients [CharZero K] (B : K) : coeffs B 1 = -B ∧ coeffs B 2 = B ^ 2 - B / 2 ∧
    coeffs B 3 = -B ^ 3 + B ^ 2 - B / 6 ∧ coeffs B 4 = B ^ 4 - 3 / 2 * B ^ 3 + 7 / 12 * B ^ 2 - B / 24 := by
  have h0 : coeffs B 0 = 1 := by rw [coeffs]
  have h1 : coeffs B 1 = -B := by
    rw [coeffs_succ]; simp [Finset.sum_range_succ, h0]
  have h2 : coeffs B 2 = B ^ 2 - B / 2 := by
    rw [coeffs_succ]; simp [Finset.sum_range_succ, h0, h1, Nat.factorial]; ring
  have h3 : coeffs B 3 = -B ^ 3 + B ^ 2 - B / 6 := by
    rw [coeffs_succ]; simp [Finset.sum_range_succ, h0, h1, h2, Nat.factorial]; ring
  refine ⟨h1, h2, h3, ?_⟩
  rw [coeffs_succ]; simp [Finset.sum_range_succ, h0, h1, h2, h3, Nat.factorial]; ring

/-- C69. The recombined equation by powers of `Delta_t`. -/
theorem C69_srt_recombined (order : ℕ) (B dt : K) (hB : B ≠ 0) (hdt : dt ≠ 0) (T : V →ₗ[K] V) (f0 : V) :
    srtRecombined order B dt T f0 = ∑ n ∈ Finset.range order, dt ^ n • (-(coeffs B (n + 1)) / B) • (T ^ (n + 1)) f0 := by
  unfold srtRecombined
  rw [← Finset.sum_neg_distrib, Finset.smul_sum]
  refine Finset.sum_congr rfl fun n hn => ?_
  rw [C69_srt_hierarchy _ _ _ _ _ _ (by have := Finset.mem_range.1 hn; omega), ← neg_smul, smul_smul, smul_smul]
  congr 1
  field_simp
  ring

end

section
variable {K A : Type} [Field K] [CommRing A] [Algebra K A] {D Q : ℕ}
open ChapmanEnskog ChapmanEnskog.Spec

theorem transport_moment (c : Fin Q → Fin D → K) (x : Fin D → (A →ₗ[K] A)) (φ : Fin Q → K) (g : Fin Q → A) :
    ∑ q, φ q • transport c x g q = ∑ a, x a (∑ q, (φ q * c q a) • g q) := by
  have h : ∀ q, transport c x g q = ∑ a, c q a • x a (g q) := fun q => by simp [transport]
  simp only [h, Finset.smul_sum, smul_smul, map_sum, map_smul]
  rw [Finset.sum_comm]

/-- C69. The order zero of the momentum equation: the balance of the momentum flux. -/
theorem C69_euler (c : Fin Q → Fin D → K) (x : Fin D → (A →ₗ[K] A)) (g : Fin Q → A) (rho ro : A) (u : Fin D → A) (cs θ : K)
    (h : EquilibriumMoments c g rho ro u cs θ) :
    continuity (transport c x g) = ∑ b, x b (ro * u b) ∧
    ∀ a, momentum c 0 (transport c x g) a = x a (cs • rho) + ∑ b, x b (ro * u a * u b) := by
  constructor
  · have := transport_moment c x (fun _ => 1) g
    simp only [one_smul, one_mul] at this
    unfold continuity
    rw [this]
    exact Finset.sum_congr rfl fun b _ => by rw [h.m1]
  · intro a
    unfold momentum
    rw [transport_moment c x (fun q => c q a) g, Pi.zero_apply, add_zero]
    simp only [h.m2, map_add, Finset.sum_add_distrib]
    congr 1
    rw [Finset.sum_eq_single a]
    · simp
    · intro b _ hb; simp [Ne.symm hb]
    · simp

/-- C69. The second derivative in the momentum equation, in the order of `Delta_t`. -/
theorem C69_first_order (c : Fin Q → Fin D → K) (x : Fin D → (A →ₗ[K] A)) (hx : ∀ a b p, x a (x b p) = x b (x a p))
    (g : Fin Q → A) (rho ro : A) (u : Fin D → A) (cs θ : K) (h : EquilibriumMoments c g rho ro u cs θ) (a : Fin D) :
    momentum c 0 ((transport c x ^ 2) g) a = cs • ((∑ b, x b (x b (ro * u a))) + (2 : K) • ∑ b, x a (x b (ro * u b))) +
      θ • ∑ b, ∑ e, x b (x e (ro * u a * u b * u e)) := by
  unfold momentum
  rw [pow_two, Module.End.mul_apply, transport_moment, Pi.zero_apply, add_zero]
  have h1 : ∀ b, ∑ q, (c q a * c q b) • transport c x g q = ∑ e, x e (∑ q, (c q a * c q b * c q e) • g q) := fun b =>
    transport_moment c x (fun q => c q a * c q b) g
  simp only [h1, h.m3, map_add, map_sum, map_smul, Finset.sum_add_distrib, ← Finset.smul_sum]
  have e1 : ∑ b, ∑ e, x b (x e (if b = e then ro * u a else 0)) = ∑ b, x b (x b (ro * u a)) := by
    refine Finset.sum_congr rfl fun b _ => ?_
    rw [Finset.sum_eq_single b]
    · simp
    · intro e _ he; simp [Ne.symm he]
    · simp
  have e2 : ∑ b, ∑ e, x b (x e (if a = e then ro * u b else 0)) = ∑ b, x a (x b (ro * u b)) := by
    refine Finset.sum_congr rfl fun b _ => ?_
    rw [Finset.sum_eq_single a]
    · simp [hx b a]
    · intro e _ he; simp [Ne.symm he]
    · simp
  have e3 : ∑ b, ∑ e, x b (x e (if a = b then ro * u e else 0)) = ∑ b, x a (x b (ro * u b)) := by
    rw [Finset.sum_comm]
    refine Finset.sum_congr rfl fun e _ => ?_
    rw [Finset.sum_eq_single a]
    · simp
    · intro b _ hb; simp [Ne.symm hb]
    · simp
  rw [e1, e2, e3]
  module

/-- C69. The factor that `handle_postcollision_values` inserts for `B ** m` is the power of the inverse relaxation rate. -/
theorem C69_post_collision (M : Matrix (Fin Q) (Fin Q) K) (hM : M.det ≠ 0) (ω : K) (m : ℕ) (φ : Fin Q → K) (g : Fin Q → A) :
    -moment φ (postCollision M (fun _ => 1 / ω) m g) = (1 / ω) ^ m • moment φ g := by
  rw [C68_moment_relaxes M hM _ _ (1 / ω) (relaxes_single M hM (1 / ω) φ) m]
  module

theorem nsRef_eq (nu nuB : K) (a : Fin D) (s : Fin D × Fin D × Fin D) :
    nsRef nu nuB a s = -(nu * ((∑ b, if s = key a b b then 1 else 0) + ∑ b, if s = key b b a then 1 else 0) +
      (nuB - 2 * nu / 3) * ∑ b, if s = key b b a then 1 else 0) := by
  unfold nsRef
  have h : (∑ b, ∑ g, if s = key g b g ∧ a = b then (1 : K) else 0) = ∑ b, if s = key b b a then 1 else 0 := by
    rw [Finset.sum_comm]
    refine Finset.sum_congr rfl fun g _ => ?_
    rw [Finset.sum_eq_single a]
    · have : key g a g = key g g a := by unfold key; rw [max_comm, min_comm]
      rw [this]; simp
    · intro b _ hb; simp [Ne.symm hb]
    · simp
  rw [h, Finset.sum_add_distrib]

theorem count_laplace (a b : Fin D) (hab : a ≠ b) :
    (∑ b', if key a b b = key a b' b' then (1 : K) else 0) = 1 ∧ (∑ b', if key a b b = key b' b' a then (1 : K) else 0) = 0 := by
  constructor
  · rw [Finset.sum_eq_single b]
    · simp
    · intro b' _ hb
      rw [if_neg]
      intro h
      simp only [key, max_self, min_self, Prod.mk.injEq, true_and] at h
      exact hb h.1.symm
    · simp
  · refine Finset.sum_eq_zero fun b' _ => ?_
    rw [if_neg]
    intro h
    simp only [key, max_self, min_self, Prod.mk.injEq] at h
    obtain ⟨h1, h2, h3⟩ := h
    rw [← h1, max_self] at h2
    exact hab h2.symm

theorem count_div (a b : Fin D) (hab : a ≠ b) :
    (∑ b', if key b b a = key a b' b' then (1 : K) else 0) = 0 ∧ (∑ b', if key b b a = key b' b' a then (1 : K) else 0) = 1 := by
  constructor
  · refine Finset.sum_eq_zero fun b' _ => ?_
    rw [if_neg]
    intro h
    exact hab (congrArg Prod.fst h).symm
  · rw [Finset.sum_eq_single b]
    · simp
    · intro b' _ hb
      rw [if_neg]
      intro h
      exact hb (congrArg Prod.fst h).symm
    · simp

/-- The coefficients of the second derivatives of the velocity in the first order of the momentum equation
(`C69_first_order`), for constant density, one rate and `ro = rho`: `(1/2 - τ) cs ρ (Laplace u_a + 2 d_a div u)`. -/
def Spec.firstOrder (τ cs rho : K) (a : Fin D) (s : Fin D × Fin D × Fin D) : K :=
  (1 / 2 - τ) * cs * rho * ∑ b, ((if s = key a b b then 1 else 0) + 2 * (if s = key b b a then 1 else 0))

/-- C69. What `determine_viscosities` finds of a method with one rate in two or three dimensions: the right shear viscosity, and
five thirds of it as bulk viscosity. -/
theorem C69_viscosities [CharZero K] (τ cs rho nu nuB : K) (a : Fin (D + 2)) :
    MatchesViscosities (Spec.firstOrder τ cs rho a) a nu nuB ↔ nu = (τ - 1 / 2) * cs * rho ∧ nuB = 5 / 3 * nu := by
  have hfo : ∀ s, Spec.firstOrder τ cs rho a s = (1 / 2 - τ) * cs * rho *
      ((∑ b, if s = key a b b then 1 else 0) + 2 * ∑ b, if s = key b b a then 1 else 0) := fun s => by
    unfold Spec.firstOrder
    rw [Finset.sum_add_distrib, Finset.mul_sum]
  constructor
  · intro h
    obtain ⟨b, hab⟩ : ∃ b : Fin (D + 2), a ≠ b := by
      by_cases h0 : a = 0
      · exact ⟨1, by rw [h0]; simp⟩
      · exact ⟨0, h0⟩
    have h1 := h (key a b b) (Finset.mem_union_left _ (Finset.mem_image_of_mem _ (Finset.mem_univ b)))
    have h2 := h (key b b a) (Finset.mem_union_right _ (Finset.mem_image_of_mem (fun b => key b b a) (Finset.mem_univ b)))
    rw [nsRef_eq, hfo, (count_laplace a b hab).1, (count_laplace a b hab).2] at h1
    rw [nsRef_eq, hfo, (count_div a b hab).1, (count_div a b hab).2] at h2
    have e1 : nu = (τ - 1 / 2) * cs * rho := by linear_combination -h1
    refine ⟨e1, ?_⟩
    linear_combination -h2 + 2 * h1
  · rintro ⟨h1, h2⟩ s _
    rw [nsRef_eq, hfo, h2, h1]
    ring

/-- C69, disagreement: that is not the bulk viscosity of the method, which is two thirds of the shear viscosity
(`C68_navier_stokes` with equal rates).  In a steady state the coefficient has no meaning: where the momentum is free of
divergence, as the continuity equation demands in the same order, the terms with it vanish. -/
theorem C69_bulk_viscosity_undetermined [CharZero K] (c : Fin Q → Fin D → K) (x : Fin D → (A →ₗ[K] A))
    (hx : ∀ a b p, x a (x b p) = x b (x a p)) (g : Fin Q → A) (rho ro : A) (u : Fin D → A) (cs : K)
    (h : EquilibriumMoments c g rho ro u cs 0) (hc : continuity (transport c x g) = 0) (a : Fin D) :
    momentum c 0 ((transport c x ^ 2) g) a = cs • (∑ b, x b (x b (ro * u a))) ∧
    ∀ nuB : K, cs • (∑ b, x b (x b (ro * u a))) = cs • (∑ b, x b (x b (ro * u a))) + nuB • x a (∑ b, x b (ro * u b)) := by
  rw [(C69_euler c x g rho ro u cs 0 h).1] at hc
  have h1 : ∑ b, x a (x b (ro * u b)) = 0 := by rw [← map_sum, hc, map_zero]
  rw [C69_first_order c x hx g rho ro u cs 0 h a, h1, hc]
  simp

end

/-- The hypotheses of `C69_steady_state`: D1Q3, an equilibrium of second degree in the position and a constant force. -/
example : (![MvPolynomial.X 0 ^ 2, MvPolynomial.X 0, 1] : Fin 3 → MvPolynomial (Fin 1) ℚ) ∈ degreeBelow (2 + 1) ∧
    (![0, 1, -1] : Fin 3 → MvPolynomial (Fin 1) ℚ) ∈ degreeBelow (1 + 1) ∧
    ((2 : ℚ) • (1 : Matrix (Fin 3) (Fin 3) ℚ)) * ((1 / 2 : ℚ) • 1) = 1 := by
  refine ⟨degreeBelow_of_totalDegree _ _ ?_, degreeBelow_of_totalDegree _ _ ?_, ?_⟩
  · intro q
    fin_cases q
    · exact (MvPolynomial.totalDegree_pow _ _).trans (by simp)
    · simp
    · simp
  · intro q
    fin_cases q <;> simp
  · rw [Matrix.smul_mul, Matrix.mul_smul, smul_smul]
    norm_num

example : ChapmanEnskog.Spec.EquilibriumMoments (A := ℚ) (K := ℚ) ![![0], ![1], ![-1]] ![2 / 3, 1 / 6, 1 / 6] 1 1
    (0 : Fin 1 → ℚ) (1 / 3) 0 := by
  constructor
  · simp [Fin.sum_univ_three]; norm_num
  · intro a; fin_cases a; simp [Fin.sum_univ_three]
  · intro a b; fin_cases a; fin_cases b; simp [Fin.sum_univ_three]; norm_num
  · intro a b e; fin_cases a; fin_cases b; fin_cases e; simp [Fin.sum_univ_three]

example : MatchesViscosities (Spec.firstOrder (1 : ℚ) (1 / 3) 1 (0 : Fin 2)) 0 (1 / 6) (5 / 18) :=
  (C69_viscosities (D := 0) 1 (1 / 3) 1 (1 / 6) (5 / 18) 0).2 ⟨by norm_num, by norm_num⟩

end SteadyState
end Lbm
