/-
C95: the force of `He` in central moment space.
-/
import Verif.HeCentral
import Verif.ContinuousLemmas
import Verif.Props.CentralTransforms
import Verif.Props.CentralTransformsOffered
import Verif.Props.CentralMoments

set_option linter.unusedSectionVars false

namespace Lbm

open Matrix CentralMoments

variable {K : Type} [Field K] {D : ℕ}

namespace Spec

/-- moments of a normal distribution of mean 0 and variance 1/3: `(n - 1)!! / 3^(n/2)` for even `n` -/
def restMoment (K : Type) [Field K] (n : ℕ) : K :=
  if n % 2 = 1 then 0 else (((n - 1).doubleFactorial : ℕ) : K) / 3 ^ (n / 2)

/-- what a force does to the central moment with exponents `e`: it moves the distribution, so the central moment changes by the
derivative of the monomial in the direction of the force, averaged over the distribution at rest -/
def forceMoment (F : Fin D → K) (e : List ℕ) : K :=
  ∑ a : Fin D, F a * (e.getD a 0 * ∏ b : Fin D, restMoment K (e.getD b 0 - if b = a then 1 else 0))

/-- moving the origin keeps every polynomial within the span of the polynomials: as polynomials, that is with any values for the monomials,
not only for the directions of a stencil -/
def ShiftClosed (K : Type) [Field K] (D : ℕ) {Q : ℕ} (polys : Fin Q → MPoly ℤ) : Prop :=
  ∀ (u : Fin D → K) (i : Fin Q), ∃ b : Fin Q → K, ∀ κ : List ℕ → K,
    ((polys i).map fun t => (t.1 : K) * Chimera.Spec.shift (List.ofFn fun a => -u a) κ t.2).sum =
      ∑ j, b j * ((polys j).map fun t => (t.1 : K) * κ t.2).sum

end Spec

namespace HeCentral

open CentralTransforms Chimera _root_.Lbm.Continuous

/-! ### Moments of normal distributions -/

theorem gauss_succ (u v : K) (n : ℕ) : gaussMoment u v (n + 1) = u * gaussMoment u v n + n * v * gaussMoment u v (n - 1) := by
  cases n with
  | zero => simp [gaussMoment]
  | succ n => rw [gaussMoment]; simp

/-- shifting the mean -/
theorem functional_gauss (u v : K) (p : Polynomial K) :
    functional (gaussMoment u v) (Polynomial.X * p) =
      u * functional (gaussMoment u v) p + v * functional (gaussMoment u v) (Polynomial.derivative p) := by
  induction p using Polynomial.induction_on' with
  | add p q hp hq => rw [mul_add, map_add, hp, hq, map_add, map_add, map_add]; ring
  | monomial n a =>
    rw [Polynomial.derivative_monomial, ← Polynomial.C_mul_X_pow_eq_monomial, ← Polynomial.C_mul_X_pow_eq_monomial,
      ← Polynomial.smul_eq_C_mul, ← Polynomial.smul_eq_C_mul, mul_smul_comm, ← pow_succ', map_smul, map_smul, map_smul, functional_pow,
      functional_pow, functional_pow, gauss_succ]
    simp only [smul_eq_mul]
    ring

theorem gauss_shift (u v w : K) (n : ℕ) :
    ∑ a ∈ Finset.range (n + 1), (n.choose a : K) * w ^ (n - a) * gaussMoment u v a = gaussMoment (u + w) v n := by
  rw [← functional_shift]
  induction n using Nat.strong_induction_on with
  | _ n ih =>
    cases n with
    | zero =>
      have := functional_pow (gaussMoment u v) 0
      rw [pow_zero] at this ⊢
      rw [this]
      simp [gaussMoment]
    | succ n =>
      have h1 : (Polynomial.X + Polynomial.C w : Polynomial K) ^ (n + 1) =
          Polynomial.X * (Polynomial.X + Polynomial.C w) ^ n + w • (Polynomial.X + Polynomial.C w) ^ n := by
        rw [Polynomial.smul_eq_C_mul]; ring
      rw [h1, map_add, functional_gauss, map_smul, Polynomial.derivative_X_add_C_pow, ← Polynomial.smul_eq_C_mul, map_smul, ih n (by omega),
        gauss_succ, smul_eq_mul, smul_eq_mul]
      cases n with
      | zero => simp [add_mul]
      | succ n =>
        rw [Nat.add_sub_cancel, ih n (by omega)]
        ring

/-- the same for the derivative of the monomial -/
theorem gauss_shift_deriv (u v w : K) (n : ℕ) :
    ∑ a ∈ Finset.range (n + 1), (n.choose a : K) * w ^ (n - a) * (a * gaussMoment u v (a - 1)) =
      n * gaussMoment (u + w) v (n - 1) := by
  cases n with
  | zero => simp
  | succ n =>
    rw [Finset.sum_range_succ', Nat.add_sub_cancel, ← gauss_shift u v w n, Finset.mul_sum]
    simp only [Nat.cast_zero, zero_mul, mul_zero, add_zero]
    refine Finset.sum_congr rfl fun a ha => ?_
    have h : (((n + 1).choose (a + 1) : ℕ) : K) * ((a + 1 : ℕ) : K) = ((n + 1 : ℕ) : K) * ((n.choose a : ℕ) : K) := by
      rw [← Nat.cast_mul, ← Nat.cast_mul, Nat.add_one_mul_choose_eq]
    rw [Nat.add_sub_cancel, Nat.add_sub_add_right]
    linear_combination w ^ (n - a) * gaussMoment u v a * h

/-- central moments in closed form -/
theorem gauss_rest (h3 : (3 : K) ≠ 0) (n : ℕ) : gaussMoment (0 : K) (1 / 3) n = Spec.restMoment K n := by
  induction n using Nat.strong_induction_on with
  | _ n ih =>
    match n with
    | 0 => simp [gaussMoment, Spec.restMoment]
    | 1 => simp [gaussMoment, Spec.restMoment]
    | n + 2 =>
      rw [gaussMoment, ih n (by omega), zero_mul, zero_add]
      unfold Spec.restMoment
      rw [Nat.add_mod_right]
      split
      · simp
      · rename_i h
        have h2 : (n + 2) / 2 = n / 2 + 1 := by omega
        rw [h2, show n + 2 - 1 = n + 1 from rfl, Nat.doubleFactorial_add_one, pow_succ]
        push_cast
        field_simp

/-! ### Raw moments of the force -/

/-- the raw moments of the force: the derivative of the monomial in the direction of the force, averaged -/
theorem heMonomial_eq (h3 : (3 : K) ≠ 0) {rho : K} (hrho : rho ≠ 0) (u F : Fin D → K) (e : Fin D → ℕ) :
    heMonomial rho u F e = ∑ a, F a * (e a * ∏ b, gaussMoment (u b) (1 / 3) (e b - if b = a then 1 else 0)) := by
  have key : ∀ a, maxwellMoment rho u (1 / 3) (fun b => e b + if b = a then 1 else 0) =
      u a * maxwellMoment rho u (1 / 3) e + rho * (1 / 3) * (e a * ∏ b, gaussMoment (u b) (1 / 3) (e b - if b = a then 1 else 0)) := by
    intro a
    unfold maxwellMoment
    rw [← Finset.mul_prod_erase Finset.univ _ (Finset.mem_univ a), ← Finset.mul_prod_erase Finset.univ (fun b => gaussMoment (u b) (1 / 3) (e b))
      (Finset.mem_univ a), ← Finset.mul_prod_erase Finset.univ (fun b => gaussMoment (u b) (1 / 3) (e b - if b = a then 1 else 0)) (Finset.mem_univ a)]
    have h1 : ∏ b ∈ Finset.univ.erase a, gaussMoment (u b) (1 / 3 : K) (e b + if b = a then 1 else 0) =
        ∏ b ∈ Finset.univ.erase a, gaussMoment (u b) (1 / 3) (e b) :=
      Finset.prod_congr rfl fun b hb => by rw [if_neg (Finset.ne_of_mem_erase hb), add_zero]
    have h2 : ∏ b ∈ Finset.univ.erase a, gaussMoment (u b) (1 / 3 : K) (e b - if b = a then 1 else 0) =
        ∏ b ∈ Finset.univ.erase a, gaussMoment (u b) (1 / 3) (e b) :=
      Finset.prod_congr rfl fun b hb => by rw [if_neg (Finset.ne_of_mem_erase hb), Nat.sub_zero]
    rw [h1, h2, if_pos rfl]
    have h4 : gaussMoment (u a) (1 / 3 : K) (e a + if a = a then 1 else 0) =
        u a * gaussMoment (u a) (1 / 3) (e a) + e a * (1 / 3) * gaussMoment (u a) (1 / 3) (e a - 1) := by rw [if_pos rfl]; exact gauss_succ _ _ _
    rw [h4]
    ring
  unfold heMonomial
  simp only [key]
  rw [inv_mul_eq_iff_eq_mul₀ (by simp [h3, hrho]), Finset.mul_sum, Finset.mul_sum, ← Finset.sum_sub_distrib]
  refine Finset.sum_congr rfl fun a _ => ?_
  ring

/-! ### Shift -/

/-- a product is shifted in every direction -/
theorem shift_prod (w : Fin D → K) (g : Fin D → ℕ → K) (e : List ℕ) (he : e.length = D) :
    Chimera.Spec.shift (List.ofFn w) (fun l => ∏ b : Fin D, g b (l.getD b 0)) e =
      ∏ b : Fin D, ∑ a ∈ Finset.range (e.getD b 0 + 1), ((e.getD b 0).choose a : K) * w b ^ (e.getD b 0 - a) * g b a := by
  induction D generalizing e with
  | zero => simp [Chimera.Spec.shift]
  | succ D ih =>
    match e, he with
    | m :: e, he =>
      rw [List.ofFn_succ, Chimera.Spec.shift, Fin.prod_univ_succ, Finset.sum_mul]
      refine Finset.sum_congr rfl fun a _ => ?_
      have h1 : (fun l : List ℕ => ∏ b, g b ((a :: l).getD b 0)) =
          fun l => ∑ _k ∈ ({()} : Finset Unit), g 0 a * ∏ b : Fin D, g b.succ (l.getD b 0) := by
        funext l
        rw [Fin.prod_univ_succ, Finset.sum_singleton]
        rfl
      rw [h1, shift_sum _ _ (fun _ => g 0 a), Finset.sum_singleton, ih (fun b => w b.succ) (fun b => g b.succ) e (by simpa using he)]
      simp only [Fin.val_zero, List.getD_cons_zero, Fin.val_succ, List.getD_cons_succ]
      ring

/-- shifted to the frame of the fluid the raw moments of the force do not depend on velocity and density -/
theorem shift_heMonomial (h3 : (3 : K) ≠ 0) {rho : K} (hrho : rho ≠ 0) (u F : Fin D → K) (e : List ℕ) (he : e.length = D) :
    Chimera.Spec.shift (List.ofFn fun a => -u a) (fun l => heMonomial rho u F (exponents D l)) e = Spec.forceMoment F e := by
  have h1 : (fun l => heMonomial rho u F (exponents D l)) = fun l => ∑ a ∈ Finset.univ, F a *
      ∏ b : Fin D, (if b = a then ((l.getD b 0 : ℕ) : K) * gaussMoment (u b) (1 / 3) (l.getD b 0 - 1) else gaussMoment (u b) (1 / 3) (l.getD b 0)) := by
    funext l
    rw [heMonomial_eq h3 hrho]
    refine Finset.sum_congr rfl fun a _ => ?_
    congr 1
    rw [← Finset.mul_prod_erase Finset.univ (fun b => gaussMoment (u b) (1 / 3 : K) (exponents D l b - if b = a then 1 else 0))
      (Finset.mem_univ a), ← Finset.mul_prod_erase Finset.univ
      (fun b : Fin D => if b = a then ((l.getD b 0 : ℕ) : K) * gaussMoment (u b) (1 / 3) (l.getD b 0 - 1) else gaussMoment (u b) (1 / 3) (l.getD b 0))
      (Finset.mem_univ a), if_pos rfl, if_pos rfl, mul_assoc]
    congr 2
    refine Finset.prod_congr rfl fun b hb => ?_
    rw [if_neg (Finset.ne_of_mem_erase hb), if_neg (Finset.ne_of_mem_erase hb)]
    rfl
  rw [h1, shift_sum _ _ F]
  unfold Spec.forceMoment
  refine Finset.sum_congr rfl fun a _ => ?_
  congr 1
  rw [shift_prod (fun a => -u a) (fun b n => if b = a then (n : K) * gaussMoment (u b) (1 / 3) (n - 1) else gaussMoment (u b) (1 / 3) n) e he,
    ← Finset.mul_prod_erase Finset.univ _ (Finset.mem_univ a), ← Finset.mul_prod_erase Finset.univ
      (fun b : Fin D => Spec.restMoment K (e.getD b 0 - if b = a then 1 else 0)) (Finset.mem_univ a), ← mul_assoc]
  congr 1
  · simp only [if_true]
    rw [gauss_shift_deriv, add_neg_cancel, gauss_rest h3]
  · refine Finset.prod_congr rfl fun b hb => ?_
    simp only [if_neg (Finset.ne_of_mem_erase hb)]
    rw [gauss_shift, add_neg_cancel, gauss_rest h3]
    rfl

/-! ### The theorem -/

section
variable {st : List (List ℤ)} {polys : Fin st.length → MPoly ℤ}

/-- the shift matrix then shifts every family of raw moments, also of quantities that do not live on the stencil -/
theorem shift_family (hp : Spec.Polynomials D polys) (hc : Spec.ShiftClosed K D polys)
    {N : (Fin D → K) → Matrix (Fin st.length) (Fin st.length) K}
    (hN : setUpShiftMatrix evP polys (velocity (K := K) (D := D) st) = .ok N) (u : Fin D → K) (κ : List ℕ → K) (i : Fin st.length) :
    (N u *ᵥ fun j => ((polys j).map fun t => (t.1 : K) * κ t.2).sum) i =
      ((polys i).map fun t => (t.1 : K) * Chimera.Spec.shift (List.ofFn fun a => -u a) κ t.2).sum := by
  obtain ⟨hd, rfl, -, -⟩ := setUp_ok hN
  choose b hb using hc u
  have hB : shiftMatrix evP polys (velocity (K := K) (D := D) st) u = Matrix.of b := by
    refine shiftMatrix_eq hd u _ fun i q => ?_
    have h := hb i fun e => evM e (velocity (K := K) (D := D) st q)
    refine Eq.trans ?_ h
    show evP (polys i) (velocity st q - u) = _
    unfold evP
    congr 1
    refine List.map_congr_left fun t ht => ?_
    rw [evM_shift u _ _ ((hp i).2 t ht).2.1]
  rw [hB, hb i κ]
  rfl

/-- polynomials with as many monomials as there are directions, with everything below them -/
theorem shiftClosed_of_monomials (hp : Spec.Polynomials D polys) (hq : (monomials polys).length = st.length)
    (hdc : Chimera.Spec.DownwardClosed (monomials polys)) (hd : (momentMatrix evP polys (velocity (K := K) (D := D) st) 0).det ≠ 0) :
    Spec.ShiftClosed K D polys := by
  intro u i
  obtain ⟨e1, e2, e3, e4⟩ := exps_of_list hq (monomials_nodup polys) (sorted_sums _)
  obtain ⟨exps, hexps⟩ : ∃ exps, exps = fun j : Fin st.length => (monomials polys).getD j [] := ⟨_, rfl⟩
  rw [← hexps] at e1
  have e2' : ∀ j, exps j ∈ monomials polys := by rw [hexps]; exact e2
  have e3' : ∀ m ∈ monomials polys, ∃ j, exps j = m := by rw [hexps]; exact e3
  have hdc' : Chimera.Spec.DownwardClosed (List.ofFn exps) := by
    intro e he a ha
    obtain ⟨j, rfl⟩ := (List.mem_ofFn' _ _).1 he
    obtain ⟨k, hk⟩ := e3' a (hdc _ (e2' j) a ha)
    exact (List.mem_ofFn' _ _).2 ⟨k, hk⟩
  have hlen : ∀ j, (exps j).length = D := by
    intro j
    obtain ⟨i, t, ht, -, h⟩ := mem_monomials.1 (e2' j)
    rw [← h]
    exact ((hp i).2 t ht).2.1
  have expand : ∀ (g : List ℕ → K) i, ((polys i).map fun t => (t.1 : K) * g t.2).sum = (monoToPoly exps polys *ᵥ fun j => g (exps j)) i :=
    fun g i => terms_sum e1 g (polys i) (hp i).1 fun t ht => e3' _ (mem_monomials.2 ⟨i, t, ht, ((hp i).2 t ht).1, rfl⟩)
  have hmul : ∀ v : Fin D → K, momentMatrix evP polys (velocity st) v = monoToPoly exps polys * momentMatrix evM exps (velocity st) v := by
    intro v
    ext i q
    exact expand (fun e => evM e fun a => velocity st q a - v a) i
  have hP : (monoToPoly (K := K) exps polys).det ≠ 0 := fun h0 => hd (by rw [hmul, det_mul, h0, zero_mul])
  refine ⟨fun j => (monoToPoly exps polys * binMat exps u * (monoToPoly exps polys)⁻¹ : Matrix _ _ K) i j, fun κ => ?_⟩
  have h2 : (fun j => ((polys j).map fun t => (t.1 : K) * κ t.2).sum) = monoToPoly exps polys *ᵥ fun j => κ (exps j) :=
    funext fun j => expand κ j
  refine Eq.trans ?_ (show ((monoToPoly exps polys * binMat exps u * (monoToPoly exps polys)⁻¹ : Matrix _ _ K) *ᵥ
    fun j => ((polys j).map fun t => (t.1 : K) * κ t.2).sum) i = _ from rfl)
  rw [h2, mulVec_mulVec, Matrix.mul_assoc _ _ (monoToPoly exps polys), nonsing_inv_mul _ (isUnit_iff_ne_zero.2 hP), Matrix.mul_one,
    ← mulVec_mulVec, expand]
  congr 2
  funext j
  exact (binMat_mul e1 hdc' u κ j).symm

theorem centralMoments_ok {N : (Fin D → K) → Matrix (Fin st.length) (Fin st.length) K}
    (hN : setUpShiftMatrix evP polys (velocity (K := K) (D := D) st) = .ok N) (rho : K) (u F : Fin D → K) :
    centralMoments st polys rho u F = .ok (N u *ᵥ fun i => rawMoment rho u F (polys i)) := by
  unfold centralMoments
  rw [hN]

/-- C95: for polynomials whose span does not depend on the origin, the central moments of the force of `He` are those of a force that moves
a normal distribution: they depend on neither the velocity nor the density. -/
theorem C95_central_moments (h3 : (3 : K) ≠ 0) (hp : Spec.Polynomials D polys) (hc : Spec.ShiftClosed K D polys) {rho : K} (hrho : rho ≠ 0) {u F : Fin D → K} {k : Fin st.length → K}
    (hk : centralMoments st polys rho u F = .ok k) (i : Fin st.length) :
    k i = ((polys i).map fun t => (t.1 : K) * Spec.forceMoment F t.2).sum := by
  unfold centralMoments at hk
  split at hk
  · cases hk
  rename_i N hN
  cases hk
  have h1 : (fun i => rawMoment rho u F (polys i)) =
      fun j => ((polys j).map fun t => (t.1 : K) * heMonomial rho u F (exponents D t.2)).sum := by
    funext j
    unfold rawMoment hePolynomial
    rw [List.map_map]
    rfl
  rw [h1, shift_family hp hc hN u fun l => heMonomial rho u F (exponents D l)]
  congr 1
  refine List.map_congr_left fun t ht => ?_
  rw [shift_heMonomial h3 hrho u F _ ((hp i).2 t ht).2.1]

/-- C95: what a central moment method adds, and what a cumulant method adds before and after the collision. -/
theorem C95_forcing (h3 : (3 : K) ≠ 0) (hp : Spec.Polynomials D polys) (hc : Spec.ShiftClosed K D polys) {rho : K} (hrho : rho ≠ 0)
    {u F : Fin D → K} :
    (∀ d g, centralForcing st polys d rho u F = .ok g →
      ∀ i, g i = (1 - d i / 2) * ((polys i).map fun t => (t.1 : K) * Spec.forceMoment F t.2).sum) ∧
    ∀ g, symmetricForcing st polys rho u F = .ok g →
      ∀ i, g.1 i = 1 / 2 * ((polys i).map fun t => (t.1 : K) * Spec.forceMoment F t.2).sum ∧ g.2 i = g.1 i := by
  constructor
  · intro d g hg i
    unfold centralForcing at hg
    split at hg
    · cases hg
    rename_i k hk
    cases hg
    rw [mulVec_diagonal, C95_central_moments h3 hp hc hrho hk]
    ring
  · intro g hg i
    unfold symmetricForcing at hg
    split at hg
    · cases hg
    rename_i k hk
    cases hg
    exact ⟨congrArg (1 / 2 * ·) (C95_central_moments h3 hp hc hrho hk i), rfl⟩

end

/-! ### Meaning -/

theorem forceMoment_eq (h3 : (3 : K) ≠ 0) {rho : K} (hrho : rho ≠ 0) (F : Fin D → K) (e : List ℕ) :
    Spec.forceMoment F e = heMonomial rho 0 F (exponents D e) := by
  rw [heMonomial_eq h3 hrho]
  unfold Spec.forceMoment
  refine Finset.sum_congr rfl fun a _ => ?_
  congr 2
  exact Finset.prod_congr rfl fun b _ => (gauss_rest h3 _).symm

/-- C95: these are the central moments of the force term `F · (ξ - u) / (ρ c_s²) f^eq` with the Maxwellian `f^eq` of speed of sound
`c_s² = 1/3`. -/
theorem C95_integral {rho : ℝ} (hrho : rho ≠ 0) (u F : Fin D → ℝ) (e : List ℕ) :
    ∫ x : Fin D → ℝ, (∏ i : Fin D, (x i - u i) ^ e.getD i 0) * ((∑ a, F a * (x a - u a)) / (rho * (1 / 3)) * maxwellian rho u (1 / 3) x) =
      Spec.forceMoment F e := by
  have h1 : ∀ x : Fin D → ℝ, (∏ i : Fin D, (x i - u i) ^ e.getD i 0) * ((∑ a, F a * (x a - u a)) / (rho * (1 / 3)) * maxwellian rho u (1 / 3) x) =
      ∑ a, F a / (rho * (1 / 3)) * ((∏ i : Fin D, (x i - u i) ^ (e.getD i 0 + if i = a then 1 else 0)) * maxwellian rho u (1 / 3) x) := by
    intro x
    have h2 : ∀ a : Fin D, ∏ i : Fin D, (x i - u i) ^ (e.getD i 0 + if i = a then 1 else 0) =
        (∏ i : Fin D, (x i - u i) ^ e.getD i 0) * (x a - u a) := by
      intro a
      simp only [pow_add, Finset.prod_mul_distrib]
      congr 1
      simp
    simp only [h2]
    rw [Finset.sum_div, Finset.sum_mul, Finset.mul_sum]
    refine Finset.sum_congr rfl fun a _ => ?_
    ring
  simp_rw [h1]
  rw [MeasureTheory.integral_finsetSum _ fun a _ => (integrable_maxwellian rho u u (by norm_num) _).const_mul _]
  simp_rw [MeasureTheory.integral_const_mul, integral_maxwellian rho u u (c := 1 / 3) (by norm_num)]
  rw [forceMoment_eq (by norm_num) hrho]
  unfold heMonomial maxwellMoment exponents
  simp only [Pi.zero_apply, mul_zero, Finset.sum_const_zero, sub_zero, sub_self, Finset.mul_sum]
  refine Finset.sum_congr rfl fun a _ => ?_
  field_simp

/-! ### Mass and momentum -/

/-- exponents of a component of the velocity -/
def unit (D : ℕ) (a : Fin D) : List ℕ := List.ofFn fun b : Fin D => if b = a then 1 else 0

theorem forceMoment_zero (F : Fin D → K) : Spec.forceMoment F (List.replicate D 0) = 0 := by
  simp [Spec.forceMoment]

theorem forceMoment_unit (F : Fin D → K) (a : Fin D) : Spec.forceMoment F (unit D a) = F a := by
  have h : ∀ b : Fin D, (unit D a).getD b 0 = if b = a then 1 else 0 := by
    intro b
    rw [List.getD_eq_getElem _ _ (by simp [unit])]
    simp [unit]
  unfold Spec.forceMoment
  simp only [h]
  rw [Finset.sum_eq_single a]
  · have h2 : ∀ b : Fin D, Spec.restMoment K ((if b = a then 1 else 0) - if b = a then 1 else 0) = 1 := by
      intro b
      simp [Spec.restMoment]
    rw [Finset.prod_congr rfl fun b _ => h2 b]
    simp
  · intro b _ hb
    simp [hb]
  · simp

/-- C95: a central moment method with this force conserves mass and adds exactly `F` to the momentum, with the velocity `(j + F/2) / ρ` and
for all rates. -/
theorem C95_momentum (h2 : (2 : K) ≠ 0) (h3 : (3 : K) ≠ 0) {st : List (List ℤ)} (m : Method K (MPoly ℤ) D st.length) (hev : m.ev = evP)
    (hp : Spec.Polynomials D m.moments) (hc : Spec.ShiftClosed K D m.moments) (d : Fin st.length → K)
    (F : Fin D → K) (pop g : (Fin st.length → K) → Fin st.length → K) {r : (Fin st.length → K) → Fin st.length → K}
    (hr : ({ m with force := some ⟨pop, some g⟩ } : Method K (MPoly ℤ) D st.length).collisionRule d true = .ok r)
    {i0 : Fin st.length} {i1 : Fin D → Fin st.length} (hi0 : m.moments i0 = [(1, List.replicate D 0)])
    (hi1 : ∀ a, m.moments (i1 a) = [(1, unit D a)]) (f : Fin st.length → K) (hf : m.Regular f) {rho : K} (hrho : rho ≠ 0)
    (hg : centralForcing st m.moments d rho (m.vel f) F = .ok (g f)) (h0 : m.keq f i0 = ∑ q, f q + m.bg (m.vel f) i0)
    (h1 : ∀ a, m.keq f (i1 a) = m.bg (m.vel f) (i1 a)) (hv : ∀ a, m.vel f a * ∑ q, f q = ∑ q, m.c q a * f q + F a / 2) :
    ∑ q, r f q = ∑ q, f q ∧ ∀ a, ∑ q, m.c q a * r f q = ∑ q, m.c q a * f q + F a := by
  have hcons : m.HasConserved i0 i1 := by
    constructor
    · intro v
      rw [hev, hi0]
      simp [evP, evM]
    · intro a v
      rw [hev, hi1]
      have : ∀ b : Fin D, (unit D a).getD b 0 = if b = a then 1 else 0 := by
        intro b
        rw [List.getD_eq_getElem _ _ (by simp [unit])]
        simp [unit]
      simp only [evP, evM, List.map_cons, List.map_nil, List.sum_cons, List.sum_nil, this]
      simp
  have hG := (C95_forcing h3 hp hc hrho).1 d _ hg
  have g0 : g f i0 = 0 := by rw [hG, hi0]; simp [forceMoment_zero]
  have g1 : ∀ a, g f (i1 a) = (1 - d (i1 a) / 2) * F a := fun a => by rw [hG, hi1]; simp [forceMoment_unit]
  obtain ⟨k0, k1⟩ := Method.C53_mass_momentum _ d true hr (i0 := i0) (i1 := i1) ⟨hcons.mass, hcons.momentum⟩ f hf
  have f1 : ∀ i, Method.forceMoment ({ m with force := some ⟨pop, some g⟩ } : Method K (MPoly ℤ) D st.length) true f i = g f i := fun _ => rfl
  rw [f1, g0] at k0
  have e0 : ∑ q, r f q = ∑ q, f q := by
    rw [k0, h0]
    show _ + d i0 * (_ - (_ + m.bg (m.vel f) i0)) + 0 = _
    ring
  refine ⟨e0, fun a => ?_⟩
  have := k1 a
  rw [f1, g1, e0, hv, h1] at this
  rw [this]
  show _ + d (i1 a) * (_ - (_ + m.bg (m.vel f) (i1 a))) + _ + _ = _
  field_simp
  ring

/-! ### The sets the library offers -/

/-- what the tables give for a set of moments in an order of non-decreasing degree -/
theorem offered_facts [CharZero K] : ∀ e ∈ Tables.predefined, ∀ ps, Offered e.2.2 ps → ∀ qs : Fin e.2.2.length → PExpr,
    (List.ofFn qs).Perm ps → (∀ i j, i ≤ j → Spec.degree (qs i) ≤ Spec.degree (qs j)) →
    Spec.Polynomials (e.2.2.headD []).length (polysOf (e.2.2.headD []).length qs) ∧
    (∃ N, setUpShiftMatrix evP (polysOf (e.2.2.headD []).length qs) (velocity (K := K) (D := (e.2.2.headD []).length) e.2.2) = .ok N) ∧
    monomials (polysOf (e.2.2.headD []).length qs) = monosL (terms (e.2.2.headD []).length ps) ∧
    Chimera.Spec.DownwardClosed (monomials (polysOf (e.2.2.headD []).length qs)) := by
  intro e he ps ho qs hperm hs
  obtain ⟨N, -, hN, -, -, -, hN1, -⟩ := C52_offered_sets (K := K) e he ps ho qs hperm hs
  have hok : offeredOk e.2.2 ps = true := by
    have := offered_ok e he
    rw [Bool.and_eq_true] at this
    rcases ho with h | ⟨g, h, rfl⟩
    · rw [Option.mem_def.1 h] at this; exact this.1
    · rw [Option.mem_def.1 h] at this; exact this.2
  generalize e.2.2 = st at *
  generalize hD : (st.headD []).length = D at *
  unfold offeredOk at hok
  simp only [hD, Bool.and_eq_true, decide_eq_true_eq] at hok
  obtain ⟨⟨⟨⟨⟨⟨⟨⟨⟨⟨⟨hD0, hD3⟩, k1⟩, k2⟩, k3⟩, k4⟩, k5⟩, k6⟩, k7⟩, k8⟩, k9⟩, k10⟩ := hok
  have hmem : ∀ i, qs i ∈ ps := fun i => hperm.subset ((List.mem_ofFn' qs _).2 ⟨i, rfl⟩)
  simp only [List.all_eq_true, Bool.and_eq_true, decide_eq_true_eq, beq_iff_eq] at k2 k3
  have hp : Spec.Polynomials D (polysOf D qs) := by
    intro i
    refine ⟨k3 _ (hmem i), fun t ht => ?_⟩
    obtain ⟨t', ht', rfl⟩ := List.mem_map.1 ht
    refine ⟨(PExpr.collected_expand (qs i)).2 t' ht', ?_, fun a ha => (k2 _ (hmem i) t' ht').1 a (List.mem_of_mem_take ha)⟩
    rw [List.length_take, (PExpr.expand_spec (R := ℤ) (qs i)).1 t' ht']
    omega
  have hdim : ∀ i, Spec.InDimension D (qs i) := by
    intro i t ht k hk
    have h1 := (k2 _ (hmem i) t ht).2
    by_cases hkl : k < t.2.length
    · rw [List.getD_eq_getElem _ _ hkl]
      refine h1 _ ?_
      rw [List.mem_drop_iff_getElem]
      exact ⟨k - D, by omega, by congr 1; omega⟩
    · exact List.getD_eq_default _ _ (by omega)
  have hMM : ∀ u : Fin D → K, momentMatrix evP (polysOf D qs) (velocity st) u = momentMatrix pev qs (velocities K st D) u := by
    intro u
    ext i q
    exact evP_polysOf hD3 (hdim i) _
  have hsm : setUpShiftMatrix evP (polysOf D qs) (velocity (K := K) (D := D) st) = setUpShiftMatrix pev qs (velocities K st D) := by
    have h2 : shiftMatrix evP (polysOf D qs) (velocity (K := K) (D := D) st) = shiftMatrix pev qs (velocities K st D) := by
      funext u
      rw [shiftMatrix, shiftMatrix, hMM, hMM]
    unfold setUpShiftMatrix
    rw [h2, hMM]
  have hofFn : (List.ofFn (polysOf D qs)).Perm (terms D ps) := by
    have := hperm.map fun p : PExpr => p.expand.map fun t => (t.1, t.2.take D)
    rw [List.map_ofFn] at this
    exact this
  have dist : Distinguished (monosL (terms D ps)) := by
    intro a ha b hb h1 h2
    unfold distinguishedB at k4
    have := List.all_eq_true.1 (List.all_eq_true.1 k4 a ha) b hb
    rw [show CumulantMethod.lexLe (CumulantMethod.sortKey a) (CumulantMethod.sortKey b) = true from h1,
      show CumulantMethod.lexLe (CumulantMethod.sortKey b) (CumulantMethod.sortKey a) = true from h2] at this
    simpa using this
  have hM : monomials (polysOf D qs) = monosL (terms D ps) := monosL_perm hofFn dist
  refine ⟨hp, ⟨N, hsm.trans hN⟩, hM, ?_⟩
  rw [hM]
  exact downwardClosed_of_check _ k6

/-- all sets but those of D3Q15 have as many monomials as polynomials -/
theorem offered_monomials : ∀ e ∈ Tables.predefined, e.2.2.length ≠ 15 → ∀ ps, Offered e.2.2 ps →
    (monosL (terms (e.2.2.headD []).length ps)).length = e.2.2.length := by
  have h : ∀ e ∈ Tables.predefined, (decide (e.2.2.length = 15) ||
      ((defaultMomentSet (e.2.2.headD []).length e.2.2.length).all fun ps =>
        decide ((monosL (terms (e.2.2.headD []).length ps)).length = e.2.2.length)) &&
      (cascadedMomentSets e.2.2).all fun g =>
        decide ((monosL (terms (e.2.2.headD []).length g.flatten)).length = e.2.2.length)) = true := by decide +kernel
  intro e he h15 ps ho
  have := h e he
  rw [decide_eq_false h15, Bool.false_or, Bool.and_eq_true] at this
  rcases ho with h | ⟨g, h, rfl⟩
  · rw [Option.mem_def.1 h] at this; exact of_decide_eq_true this.1
  · rw [Option.mem_def.1 h] at this; exact of_decide_eq_true this.2

/-- C95: for every default and every cascaded set, in every order of non-decreasing degree and on every predefined stencil but D3Q15, the
central moments of the force can be computed and are those of a force that moves a normal distribution, for every velocity and density. -/
theorem C95_offered_sets [CharZero K] : ∀ e ∈ Tables.predefined, e.2.2.length ≠ 15 → ∀ ps, Offered e.2.2 ps →
    ∀ qs : Fin e.2.2.length → PExpr, (List.ofFn qs).Perm ps → (∀ i j, i ≤ j → Spec.degree (qs i) ≤ Spec.degree (qs j)) →
    ∀ (rho : K) (u F : Fin (e.2.2.headD []).length → K), rho ≠ 0 →
    ∃ k, centralMoments e.2.2 (polysOf (e.2.2.headD []).length qs) rho u F = .ok k ∧
      ∀ i, k i = ((polysOf (e.2.2.headD []).length qs i).map fun t => (t.1 : K) * Spec.forceMoment F t.2).sum := by
  intro e he h15 ps ho qs hperm hs rho u F hrho
  obtain ⟨hp, ⟨N, hN⟩, hM, hdc⟩ := offered_facts (K := K) e he ps ho qs hperm hs
  have hc := shiftClosed_of_monomials hp (by rw [hM]; exact offered_monomials e he h15 ps ho) hdc (setUp_ok hN).1
  have hk : ∃ k, centralMoments e.2.2 (polysOf (e.2.2.headD []).length qs) rho u F = .ok k := by
    unfold centralMoments
    rw [hN]
    exact ⟨_, rfl⟩
  obtain ⟨k, hk⟩ := hk
  exact ⟨k, hk, C95_central_moments (by norm_num) hp hc hrho hk⟩

/-! ### D3Q15 -/

namespace D3Q15
open PExpr

abbrev st : List (List ℤ) := Tables.D3Q15_walberla

/-- the cascaded moments of D3Q15 (`default_moment_sets.py:58-79`) -/
def moments : Fin 15 → PExpr :=
  ![1, x, y, z, x * y, x * z, y * z, x ^ 2 - y ^ 2, x ^ 2 - z ^ 2, x ^ 2 + y ^ 2 + z ^ 2, x * (x ^ 2 + y ^ 2 + z ^ 2),
    y * (x ^ 2 + y ^ 2 + z ^ 2), z * (x ^ 2 + y ^ 2 + z ^ 2), x * y * z, x ^ 2 * y ^ 2 + x ^ 2 * z ^ 2 + y ^ 2 * z ^ 2]

def polys : Fin 15 → MPoly ℤ := polysOf 3 moments

theorem cascaded : ∃ g, cascadedMomentSets st = some g ∧ List.ofFn moments = g.flatten := ⟨_, rfl, by decide +kernel⟩

theorem cube [CharZero K] (q : Fin 15) (a : Fin 3) : velocity (K := K) (D := 3) st q a ^ 3 = velocity st q a := by
  unfold velocity
  have : ∀ q : Fin 15, ∀ a : Fin 3, ((st.get q).getD a 0) ^ 3 = (st.get q).getD a 0 := by decide
  exact_mod_cast congrArg (Int.cast : ℤ → K) (this q a)

theorem polys_eq : polys = ![[(1, [0, 0, 0])], [(1, [1, 0, 0])], [(1, [0, 1, 0])], [(1, [0, 0, 1])], [(1, [1, 1, 0])], [(1, [1, 0, 1])],
    [(1, [0, 1, 1])], [(1, [2, 0, 0]), (-1, [0, 2, 0])], [(1, [2, 0, 0]), (-1, [0, 0, 2])],
    [(1, [2, 0, 0]), (1, [0, 2, 0]), (1, [0, 0, 2])], [(1, [3, 0, 0]), (1, [1, 2, 0]), (1, [1, 0, 2])],
    [(1, [2, 1, 0]), (1, [0, 3, 0]), (1, [0, 1, 2])], [(1, [2, 0, 1]), (1, [0, 2, 1]), (1, [0, 0, 3])],
    [(1, [1, 1, 1])], [(1, [2, 2, 0]), (1, [2, 0, 2]), (1, [0, 2, 2])]] := by decide +kernel

/-- a row of the shift matrix -/
theorem row_eq {P : Type} {Q : ℕ} {ev : P → (Fin D → K) → K} {moments : Fin Q → P} {c : Fin Q → Fin D → K}
    (hd : (momentMatrix ev moments c 0).det ≠ 0) (u : Fin D → K) (i : Fin Q) (b : Fin Q → K)
    (hb : ∀ q, ev (moments i) (c q - u) = ∑ j, b j * ev (moments j) (c q)) : shiftMatrix ev moments c u i = b := by
  have h1 : shiftMatrix ev moments c u i ᵥ* momentMatrix ev moments c 0 = b ᵥ* momentMatrix ev moments c 0 := by
    funext q
    have h2 := congrFun (congrFun (shiftMatrix_mul hd u) i) q
    rw [mul_apply] at h2
    refine h2.trans ((hb q).trans ?_)
    rw [vecMul, dotProduct]
    exact Finset.sum_congr rfl fun j _ => by rw [momentMatrix_zero]
  have h3 := congrArg (· ᵥ* (momentMatrix ev moments c 0)⁻¹) h1
  simpa only [vecMul_vecMul, mul_nonsing_inv _ (isUnit_iff_ne_zero.2 hd), vecMul_one] using h3

theorem evP_rows (v : Fin 3 → K) (i : Fin 15) : evP (polys i) v =
    ![1, v 0, v 1, v 2, v 0 * v 1, v 0 * v 2, v 1 * v 2, v 0 ^ 2 - v 1 ^ 2, v 0 ^ 2 - v 2 ^ 2, v 0 ^ 2 + v 1 ^ 2 + v 2 ^ 2,
      v 0 ^ 3 + v 0 * v 1 ^ 2 + v 0 * v 2 ^ 2, v 0 ^ 2 * v 1 + v 1 ^ 3 + v 1 * v 2 ^ 2, v 0 ^ 2 * v 2 + v 1 ^ 2 * v 2 + v 2 ^ 3,
      v 0 * v 1 * v 2, v 0 ^ 2 * v 1 ^ 2 + v 0 ^ 2 * v 2 ^ 2 + v 1 ^ 2 * v 2 ^ 2] i := by
  rw [polys_eq]
  fin_cases i <;> simp [evP, evM, Fin.prod_univ_three] <;> ring1

/-- the last row of the shift matrix: on the stencil `x (y² + z²)` is `x (x² + y² + z²) - x` -/
def lastRow (u : Fin 3 → K) : Fin 15 → K :=
  let T := 2 * (u 0 ^ 2 + u 1 ^ 2 + u 2 ^ 2) / 3
  ![u 0 ^ 2 * u 1 ^ 2 + u 0 ^ 2 * u 2 ^ 2 + u 1 ^ 2 * u 2 ^ 2,
    2 * u 0 - 2 * u 0 * (u 1 ^ 2 + u 2 ^ 2), 2 * u 1 - 2 * u 1 * (u 0 ^ 2 + u 2 ^ 2), 2 * u 2 - 2 * u 2 * (u 0 ^ 2 + u 1 ^ 2),
    4 * u 0 * u 1, 4 * u 0 * u 2, 4 * u 1 * u 2, T - (u 0 ^ 2 + u 2 ^ 2), T - (u 0 ^ 2 + u 1 ^ 2), T,
    -2 * u 0, -2 * u 1, -2 * u 2, 0, 1]

theorem last_row [CharZero K] (hd : (momentMatrix (Q := 15) evP polys (velocity (K := K) (D := 3) st) 0).det ≠ 0) (u : Fin 3 → K) :
    shiftMatrix (Q := 15) evP polys (velocity (K := K) (D := 3) st) u 14 = lastRow u := by
  refine row_eq hd u 14 _ fun q => ?_
  have h0 := cube (K := K) q 0
  have h1 := cube (K := K) q 1
  have h2 := cube (K := K) q 2
  simp only [evP_rows, Fin.sum_univ_succ, lastRow]
  generalize velocity (K := K) (D := 3) st q = v at *
  simp
  linear_combination 2 * u 0 * h0 + 2 * u 1 * h1 + 2 * u 2 * h2

set_option maxHeartbeats 1000000 in
theorem raw_rows [CharZero K] {rho : K} (hrho : rho ≠ 0) (u F : Fin 3 → K) (i : Fin 15) : rawMoment rho u F (polys i) =
    ![0, F 0, F 1, F 2, F 0 * u 1 + F 1 * u 0, F 0 * u 2 + F 2 * u 0, F 1 * u 2 + F 2 * u 1, 2 * F 0 * u 0 - 2 * F 1 * u 1,
      2 * F 0 * u 0 - 2 * F 2 * u 2, 2 * F 0 * u 0 + 2 * F 1 * u 1 + 2 * F 2 * u 2,
      F 0 * (3 * u 0 ^ 2 + u 1 ^ 2 + u 2 ^ 2 + 5 / 3) + 2 * u 0 * (F 1 * u 1 + F 2 * u 2),
      F 1 * (3 * u 1 ^ 2 + u 0 ^ 2 + u 2 ^ 2 + 5 / 3) + 2 * u 1 * (F 0 * u 0 + F 2 * u 2),
      F 2 * (3 * u 2 ^ 2 + u 0 ^ 2 + u 1 ^ 2 + 5 / 3) + 2 * u 2 * (F 0 * u 0 + F 1 * u 1),
      F 0 * u 1 * u 2 + F 1 * u 0 * u 2 + F 2 * u 0 * u 1,
      2 * F 0 * u 0 * (u 1 ^ 2 + u 2 ^ 2 + 2 / 3) + 2 * F 1 * u 1 * (u 0 ^ 2 + u 2 ^ 2 + 2 / 3) +
        2 * F 2 * u 2 * (u 0 ^ 2 + u 1 ^ 2 + 2 / 3)] i := by
  have h3 : (3 : K) ≠ 0 := by norm_num
  rw [polys_eq]
  fin_cases i <;>
    simp [rawMoment, hePolynomial, heMonomial_eq h3 hrho, exponents, Fin.sum_univ_three, Fin.prod_univ_three, gaussMoment] <;> ring1

theorem force_rows [CharZero K] (F : Fin 3 → K) (i : Fin 15) : ((polys i).map fun t => (t.1 : K) * Spec.forceMoment F t.2).sum =
    ![0, F 0, F 1, F 2, 0, 0, 0, 0, 0, 0, 5 / 3 * F 0, 5 / 3 * F 1, 5 / 3 * F 2, 0, 0] i := by
  have h3 : (3 : K) ≠ 0 := by norm_num
  rw [polys_eq]
  fin_cases i <;>
    simp [Spec.forceMoment, Spec.restMoment, Fin.sum_univ_three, Fin.prod_univ_three, Nat.doubleFactorial] <;> ring1

/-- C95 is false for the cascaded moments of D3Q15, the default of the central moment method: the span of these polynomials depends on the
origin, the shift matrix repairs that with relations that hold on the stencil, `x³ = x`, but not for the continuous force. The last central
moment of the force is `-6 (u_x³ F_x + u_y³ F_y + u_z³ F_z)` instead of 0, for every velocity, density and force. -/
theorem C95_d3q15 [CharZero K] {rho : K} (hrho : rho ≠ 0) (u F : Fin 3 → K) :
    ∃ k : Fin 15 → K, centralMoments st polys rho u F = .ok k ∧ k 14 = -6 * (u 0 ^ 3 * F 0 + u 1 ^ 3 * F 1 + u 2 ^ 3 * F 2) ∧
      ((polys 14).map fun t => (t.1 : K) * Spec.forceMoment F t.2).sum = 0 := by
  have he : ("D3Q15", "walberla", st) ∈ Tables.predefined := by decide +kernel
  obtain ⟨g, hg, hperm⟩ := cascaded
  have hs : ∀ i j : Fin 15, i ≤ j → Spec.degree (moments i) ≤ Spec.degree (moments j) := by decide +kernel
  obtain ⟨hp, ⟨N, hN⟩, -, -⟩ := offered_facts (K := K) _ he _ (Or.inr ⟨g, hg, rfl⟩) moments (List.Perm.of_eq hperm) hs
  have hN' : setUpShiftMatrix (Q := 15) evP polys (velocity (K := K) (D := 3) st) = .ok N := hN
  obtain ⟨hd, hNe, -, -⟩ := setUp_ok hN'
  refine ⟨_, centralMoments_ok hN rho u F, ?_, ?_⟩
  · show ∑ j : Fin 15, N u (14 : Fin 15) j * rawMoment rho u F (polys j) = _
    rw [hNe, last_row hd]
    simp only [raw_rows hrho, Fin.sum_univ_succ, lastRow]
    simp
    ring
  · exact force_rows F 14

/-- at a velocity of 1/10 in the direction of the force -/
example : ∃ k : Fin 15 → ℚ, centralMoments st polys (1 : ℚ) ![1 / 10, 0, 0] ![1, 0, 0] = .ok k ∧ k 14 = -3 / 500 := by
  obtain ⟨k, hk, h, -⟩ := C95_d3q15 (K := ℚ) one_ne_zero ![1 / 10, 0, 0] ![1, 0, 0]
  exact ⟨k, hk, by rw [h]; norm_num [Matrix.cons_val_two]⟩

/-- the default moments of D3Q15, with 20 monomials, in an order of non-decreasing degree -/
def defaults : Fin 15 → MPoly ℤ :=
  ![[(1, [0, 0, 0])], [(1, [1, 0, 0])], [(1, [0, 1, 0])], [(1, [0, 0, 1])], [(1, [2, 0, 0])], [(1, [0, 2, 0])], [(1, [0, 0, 2])],
    [(1, [1, 1, 0])], [(1, [1, 0, 1])], [(1, [0, 1, 1])], [(1, [1, 1, 1])], [(3, [1, 2, 0]), (3, [1, 0, 2])],
    [(3, [2, 1, 0]), (3, [0, 1, 2])], [(3, [2, 0, 1]), (3, [0, 2, 1])], [(6, [2, 2, 0]), (6, [2, 0, 2]), (6, [0, 2, 2])]]

example : ∃ ps, defaultMomentSet 3 15 = some ps ∧ (List.ofFn defaults).Perm (terms 3 ps) := ⟨_, rfl, by decide +kernel⟩

set_option maxHeartbeats 2000000 in
/-- the span of the default moments does not depend on the origin, although they have more monomials than there are directions -/
theorem defaults_closed : Spec.ShiftClosed K 3 defaults := by
  intro u i
  fin_cases i
  · exact ⟨![(1), 0, 0, 0, 0, 0, 0, 0, 0, 0, 0, 0, 0, 0, 0], fun κ => by
      simp [defaults, Chimera.Spec.shift, Fin.sum_univ_succ, Nat.choose]⟩
  · exact ⟨![(-1) * u 0 ^ 1, (1), 0, 0, 0, 0, 0, 0, 0, 0, 0, 0, 0, 0, 0], fun κ => by
      simp [defaults, Chimera.Spec.shift, Finset.sum_range_succ, Fin.sum_univ_succ, Nat.choose]⟩
  · exact ⟨![(-1) * u 1 ^ 1, 0, (1), 0, 0, 0, 0, 0, 0, 0, 0, 0, 0, 0, 0], fun κ => by
      simp [defaults, Chimera.Spec.shift, Finset.sum_range_succ, Fin.sum_univ_succ, Nat.choose]⟩
  · exact ⟨![(-1) * u 2 ^ 1, 0, 0, (1), 0, 0, 0, 0, 0, 0, 0, 0, 0, 0, 0], fun κ => by
      simp [defaults, Chimera.Spec.shift, Finset.sum_range_succ, Fin.sum_univ_succ, Nat.choose]⟩
  · exact ⟨![(1) * u 0 ^ 2, (-2) * u 0 ^ 1, 0, 0, (1), 0, 0, 0, 0, 0, 0, 0, 0, 0, 0], fun κ => by
      simp [defaults, Chimera.Spec.shift, Finset.sum_range_succ, Fin.sum_univ_succ, Nat.choose]
      ring1⟩
  · exact ⟨![(1) * u 1 ^ 2, 0, (-2) * u 1 ^ 1, 0, 0, (1), 0, 0, 0, 0, 0, 0, 0, 0, 0], fun κ => by
      simp [defaults, Chimera.Spec.shift, Finset.sum_range_succ, Fin.sum_univ_succ, Nat.choose]
      ring1⟩
  · exact ⟨![(1) * u 2 ^ 2, 0, 0, (-2) * u 2 ^ 1, 0, 0, (1), 0, 0, 0, 0, 0, 0, 0, 0], fun κ => by
      simp [defaults, Chimera.Spec.shift, Finset.sum_range_succ, Fin.sum_univ_succ, Nat.choose]
      ring1⟩
  · exact ⟨![(1) * u 0 ^ 1 * u 1 ^ 1, (-1) * u 1 ^ 1, (-1) * u 0 ^ 1, 0, 0, 0, 0, (1), 0, 0, 0, 0, 0, 0, 0], fun κ => by
      simp [defaults, Chimera.Spec.shift, Finset.sum_range_succ, Fin.sum_univ_succ, Nat.choose]
      ring1⟩
  · exact ⟨![(1) * u 0 ^ 1 * u 2 ^ 1, (-1) * u 2 ^ 1, 0, (-1) * u 0 ^ 1, 0, 0, 0, 0, (1), 0, 0, 0, 0, 0, 0], fun κ => by
      simp [defaults, Chimera.Spec.shift, Finset.sum_range_succ, Fin.sum_univ_succ, Nat.choose]
      ring1⟩
  · exact ⟨![(1) * u 1 ^ 1 * u 2 ^ 1, 0, (-1) * u 2 ^ 1, (-1) * u 1 ^ 1, 0, 0, 0, 0, 0, (1), 0, 0, 0, 0, 0], fun κ => by
      simp [defaults, Chimera.Spec.shift, Finset.sum_range_succ, Fin.sum_univ_succ, Nat.choose]
      ring1⟩
  · exact ⟨![(-1) * u 0 ^ 1 * u 1 ^ 1 * u 2 ^ 1, (1) * u 1 ^ 1 * u 2 ^ 1, (1) * u 0 ^ 1 * u 2 ^ 1, (1) * u 0 ^ 1 * u 1 ^ 1, 0, 0, 0, (-1) * u 2 ^ 1, (-1) * u 1 ^ 1, (-1) * u 0 ^ 1, (1), 0, 0, 0, 0], fun κ => by
      simp [defaults, Chimera.Spec.shift, Finset.sum_range_succ, Fin.sum_univ_succ, Nat.choose]
      ring1⟩
  · exact ⟨![(-3) * u 0 ^ 1 * u 1 ^ 2 + (-3) * u 0 ^ 1 * u 2 ^ 2, (3) * u 1 ^ 2 + (3) * u 2 ^ 2, (6) * u 0 ^ 1 * u 1 ^ 1, (6) * u 0 ^ 1 * u 2 ^ 1, 0, (-3) * u 0 ^ 1, (-3) * u 0 ^ 1, (-6) * u 1 ^ 1, (-6) * u 2 ^ 1, 0, 0, (1), 0, 0, 0], fun κ => by
      simp [defaults, Chimera.Spec.shift, Finset.sum_range_succ, Fin.sum_univ_succ, Nat.choose]
      ring1⟩
  · exact ⟨![(-3) * u 0 ^ 2 * u 1 ^ 1 + (-3) * u 1 ^ 1 * u 2 ^ 2, (6) * u 0 ^ 1 * u 1 ^ 1, (3) * u 0 ^ 2 + (3) * u 2 ^ 2, (6) * u 1 ^ 1 * u 2 ^ 1, (-3) * u 1 ^ 1, 0, (-3) * u 1 ^ 1, (-6) * u 0 ^ 1, 0, (-6) * u 2 ^ 1, 0, 0, (1), 0, 0], fun κ => by
      simp [defaults, Chimera.Spec.shift, Finset.sum_range_succ, Fin.sum_univ_succ, Nat.choose]
      ring1⟩
  · exact ⟨![(-3) * u 0 ^ 2 * u 2 ^ 1 + (-3) * u 1 ^ 2 * u 2 ^ 1, (6) * u 0 ^ 1 * u 2 ^ 1, (6) * u 1 ^ 1 * u 2 ^ 1, (3) * u 0 ^ 2 + (3) * u 1 ^ 2, (-3) * u 2 ^ 1, (-3) * u 2 ^ 1, 0, 0, (-6) * u 0 ^ 1, (-6) * u 1 ^ 1, 0, 0, 0, (1), 0], fun κ => by
      simp [defaults, Chimera.Spec.shift, Finset.sum_range_succ, Fin.sum_univ_succ, Nat.choose]
      ring1⟩
  · exact ⟨![(6) * u 0 ^ 2 * u 1 ^ 2 + (6) * u 0 ^ 2 * u 2 ^ 2 + (6) * u 1 ^ 2 * u 2 ^ 2, (-12) * u 0 ^ 1 * u 1 ^ 2 + (-12) * u 0 ^ 1 * u 2 ^ 2, (-12) * u 0 ^ 2 * u 1 ^ 1 + (-12) * u 1 ^ 1 * u 2 ^ 2, (-12) * u 0 ^ 2 * u 2 ^ 1 + (-12) * u 1 ^ 2 * u 2 ^ 1, (6) * u 1 ^ 2 + (6) * u 2 ^ 2, (6) * u 0 ^ 2 + (6) * u 2 ^ 2, (6) * u 0 ^ 2 + (6) * u 1 ^ 2, (24) * u 0 ^ 1 * u 1 ^ 1, (24) * u 0 ^ 1 * u 2 ^ 1, (24) * u 1 ^ 1 * u 2 ^ 1, 0, (-4) * u 0 ^ 1, (-4) * u 1 ^ 1, (-4) * u 2 ^ 1, (1)], fun κ => by
      simp [defaults, Chimera.Spec.shift, Finset.sum_range_succ, Fin.sum_univ_succ, Nat.choose]
      ring1⟩

end D3Q15

namespace Example
open PExpr

/-- the cascaded moments of D2Q9: the force of `He` does not depend on the velocity, the only moments it changes are the momenta and the
third-order ones -/
example (rho : ℚ) (hrho : rho ≠ 0) (u F : Fin 2 → ℚ) :
    ∃ k : Fin 9 → ℚ, centralMoments Tables.D2Q9_walberla (polysOf 2 cascadedD2Q9) rho u F = .ok k ∧
      ∀ i, k i = ![0, F 0, F 1, 0, 0, 0, F 1 / 3, F 0 / 3, 0] i := by
  have he : ("D2Q9", "walberla", Tables.D2Q9_walberla) ∈ Tables.predefined := by decide +kernel
  obtain ⟨g, hg, hperm⟩ : ∃ g, cascadedMomentSets Tables.D2Q9_walberla = some g ∧ List.ofFn cascadedD2Q9 = g.flatten :=
    ⟨_, rfl, by decide +kernel⟩
  have hd : ∀ i j : Fin 9, i ≤ j → Spec.degree (cascadedD2Q9 i) ≤ Spec.degree (cascadedD2Q9 j) := by decide +kernel
  obtain ⟨k, hk, h⟩ := C95_offered_sets (K := ℚ) _ he (by decide) _ (Or.inr ⟨g, hg, rfl⟩) cascadedD2Q9 (List.Perm.of_eq hperm) hd rho u F hrho
  refine ⟨k, hk, fun i => (h i).trans ?_⟩
  have hp : polysOf 2 cascadedD2Q9 = ![[(1, [0, 0])], [(1, [1, 0])], [(1, [0, 1])], [(1, [1, 1])], [(1, [2, 0]), (-1, [0, 2])],
      [(1, [2, 0]), (1, [0, 2])], [(1, [2, 1])], [(1, [1, 2])], [(1, [2, 2])]] := by decide +kernel
  show ((polysOf 2 cascadedD2Q9 i).map fun t => (t.1 : ℚ) * Spec.forceMoment F t.2).sum = _
  rw [hp]
  fin_cases i <;> simp [Spec.forceMoment, Spec.restMoment, Fin.sum_univ_two, Fin.prod_univ_two, Nat.doubleFactorial] <;> ring1

end Example

end HeCentral
end Lbm
