/-
C52: the shift matrix and the matrix transform to central moments.
-/
import Verif.CentralMoments
import Verif.MomentExpansions
import Verif.Props.CollisionModels
import Mathlib.LinearAlgebra.Matrix.Block
import Mathlib.Analysis.Real.Sqrt

set_option linter.unusedSectionVars false

namespace Lbm

open Matrix

namespace Spec

/-- central moment of a population vector about a velocity; the moment is given as a function of the velocity -/
def cmom {K : Type} [Field K] {D Q : ℕ} (c : Fin Q → Fin D → K) (p : (Fin D → K) → K) (u : Fin D → K) (f : Fin Q → K) : K :=
  ∑ q, p (c q - u) * f q

/-- Moving the origin changes every moment only by combinations of earlier moments. -/
def Triangular {K : Type} [Field K] {D Q : ℕ} (c : Fin Q → Fin D → K) (p : Fin Q → (Fin D → K) → K) : Prop :=
  ∀ (u : Fin D → K) (i : Fin Q), ∃ a : Fin Q → K, (∀ j, i ≤ j → a j = 0) ∧
    ∀ q, p i (c q - u) = p i (c q) + ∑ j, a j * p j (c q)

end Spec

namespace CentralMoments

variable {K P : Type} [Field K] {D Q : ℕ}

section Generic
variable {ev : P → (Fin D → K) → K} {moments : Fin Q → P} {c : Fin Q → Fin D → K}

theorem momentMatrix_zero (i q : Fin Q) : momentMatrix ev moments c 0 i q = ev (moments i) (c q) := by
  simp [momentMatrix]

theorem shiftMatrix_mul (h : (momentMatrix ev moments c 0).det ≠ 0) (u : Fin D → K) :
    shiftMatrix ev moments c u * momentMatrix ev moments c 0 = momentMatrix ev moments c u := by
  rw [shiftMatrix, Matrix.mul_assoc, nonsing_inv_mul _ (isUnit_iff_ne_zero.2 h), Matrix.mul_one]

theorem setUp_ok {N : (Fin D → K) → Matrix (Fin Q) (Fin Q) K} (h : setUpShiftMatrix ev moments c = .ok N) :
    (momentMatrix ev moments c 0).det ≠ 0 ∧ N = shiftMatrix ev moments c ∧ IsLower N ∧ ∀ u, ∑ i, N u i i = (Q : K) := by
  unfold setUpShiftMatrix at h
  split at h
  · cases h
  rename_i hd
  split at h
  · cases h
  rename_i hl
  split at h
  · cases h
  rename_i ht
  cases h
  exact ⟨hd, rfl, not_not.1 hl, not_not.1 ht⟩

/-- A matrix that represents the shifted moments by the moments is the shift matrix. -/
theorem shiftMatrix_eq (h : (momentMatrix ev moments c 0).det ≠ 0) (u : Fin D → K) (B : Matrix (Fin Q) (Fin Q) K)
    (hB : ∀ i q, ev (moments i) (c q - u) = ∑ j, B i j * ev (moments j) (c q)) : shiftMatrix ev moments c u = B := by
  have : momentMatrix ev moments c u = B * momentMatrix ev moments c 0 := by
    ext i q
    rw [mul_apply]
    simp only [momentMatrix_zero]
    exact hB i q
  rw [shiftMatrix, this, Matrix.mul_assoc, mul_nonsing_inv _ (isUnit_iff_ne_zero.2 h), Matrix.mul_one]

/-- C52: whenever `set_up_shift_matrix` succeeds, the shift matrix turns the raw moments of arbitrary populations into their central
moments about an arbitrary velocity, and it is the unit matrix for velocity 0. -/
theorem C52_shift_matrix {N : (Fin D → K) → Matrix (Fin Q) (Fin Q) K} (h : setUpShiftMatrix ev moments c = .ok N) :
    (∀ u f i, (N u *ᵥ fun j => Spec.cmom c (ev (moments j)) 0 f) i = Spec.cmom c (ev (moments i)) u f) ∧ N 0 = 1 := by
  obtain ⟨hd, rfl, -, -⟩ := setUp_ok h
  refine ⟨fun u f i => ?_, ?_⟩
  · have e : (fun j => Spec.cmom c (ev (moments j)) 0 f) = momentMatrix ev moments c 0 *ᵥ f := by
      funext j
      simp [Spec.cmom, mulVec, dotProduct, momentMatrix]
    rw [e, mulVec_mulVec, shiftMatrix_mul hd]
    rfl
  · rw [shiftMatrix, mul_nonsing_inv _ (isUnit_iff_ne_zero.2 hd)]

/-- C52: the forward matrix computes the central moments; the two matrices are inverse to each other for every velocity for which
the populations are determined by their central moments. -/
theorem C52_matrix_transform {t : Transform K D Q} (h : matrixTransform ev moments c = .ok t) (u : Fin D → K) :
    (∀ f i, (t.forward u *ᵥ f) i = Spec.cmom c (ev (moments i)) u f) ∧
    ((∀ f, (∀ i, Spec.cmom c (ev (moments i)) u f = 0) → f = 0) →
      t.backward u * t.forward u = 1 ∧ t.forward u * t.backward u = 1) := by
  unfold matrixTransform at h
  cases hs : setUpShiftMatrix ev moments c with
  | error e => rw [hs] at h; cases h
  | ok N =>
    rw [hs] at h
    cases h
    obtain ⟨hd, rfl, -, -⟩ := setUp_ok hs
    refine ⟨fun f i => ?_, fun hu => ?_⟩
    · show ((shiftMatrix ev moments c u * momentMatrix ev moments c 0) *ᵥ f) i = _
      rw [shiftMatrix_mul hd]
      rfl
    · have hdu : (momentMatrix ev moments c u).det ≠ 0 := by
        intro h0
        obtain ⟨v, hv, hv0⟩ := exists_mulVec_eq_zero_iff.2 h0
        exact hv (hu v fun i => congrFun hv0 i)
      have e : (momentMatrix ev moments c 0)⁻¹ * (shiftMatrix ev moments c u)⁻¹ = (momentMatrix ev moments c u)⁻¹ := by
        rw [← Matrix.mul_inv_rev, shiftMatrix_mul hd]
      have hu' : IsUnit (momentMatrix ev moments c u).det := isUnit_iff_ne_zero.2 hdu
      constructor
      · show ((momentMatrix ev moments c 0)⁻¹ * (shiftMatrix ev moments c u)⁻¹) *
          (shiftMatrix ev moments c u * momentMatrix ev moments c 0) = 1
        rw [e, shiftMatrix_mul hd, nonsing_inv_mul _ hu']
      · show (shiftMatrix ev moments c u * momentMatrix ev moments c 0) *
          ((momentMatrix ev moments c 0)⁻¹ * (shiftMatrix ev moments c u)⁻¹) = 1
        rw [e, shiftMatrix_mul hd, mul_nonsing_inv _ hu']

theorem det_lower {n : ℕ} (B : Matrix (Fin n) (Fin n) K) (h : ∀ i j, i < j → B i j = 0) : B.det = ∏ i, B i i :=
  det_of_isLowerTriangular B fun i j hij => h i j (by simpa using hij)

/-- C52: for independent moments in an order in which moving the origin only involves earlier moments, `set_up_shift_matrix`
succeeds, the shift matrix is lower triangular with unit diagonal, has determinant 1 for every velocity, and hence both
transforms are defined and inverse to each other for every velocity. -/
theorem C52_triangular (hd : (momentMatrix ev moments c 0).det ≠ 0) (ht : Spec.Triangular c fun i => ev (moments i)) :
    ∃ N t, setUpShiftMatrix ev moments c = .ok N ∧ matrixTransform ev moments c = .ok t ∧
      (∀ u i j, i < j → N u i j = 0) ∧ (∀ u i, N u i i = 1) ∧ (∀ u, (N u).det = 1) ∧
      (∀ u, t.backward u * t.forward u = 1 ∧ t.forward u * t.backward u = 1) := by
  choose a ha hr using ht
  beta_reduce at hr
  have hN : ∀ u, shiftMatrix ev moments c u = fun i j => (if i = j then 1 else 0) + a u i j := by
    intro u
    refine shiftMatrix_eq hd u _ fun i q => ?_
    rw [hr u i q]
    simp only [add_mul, Finset.sum_add_distrib, ite_mul, one_mul, zero_mul, Finset.sum_ite_eq, Finset.mem_univ, if_true]
  have hlow : IsLower (shiftMatrix ev moments c) := by
    intro u i j hij
    rw [hN]
    simp only [if_neg hij.ne, ha u i j hij.le, add_zero]
  have hdiag : ∀ u i, shiftMatrix ev moments c u i i = 1 := by
    intro u i
    rw [hN]
    simp only [if_true, ha u i i le_rfl, add_zero]
  have hok : setUpShiftMatrix ev moments c = .ok (shiftMatrix ev moments c) := by
    unfold setUpShiftMatrix
    rw [if_neg hd, if_neg (not_not.2 hlow), if_neg (not_not.2 fun u => by simp [hdiag])]
  have hdet : ∀ u, (shiftMatrix ev moments c u).det = 1 := fun u => by
    rw [det_lower _ (hlow u)]
    simp [hdiag]
  have hM : matrixTransform ev moments c = .ok
      { forward := fun u => shiftMatrix ev moments c u * momentMatrix ev moments c 0
        backward := fun u => (momentMatrix ev moments c 0)⁻¹ * (shiftMatrix ev moments c u)⁻¹ } := by
    unfold matrixTransform; rw [hok]
  refine ⟨_, _, hok, hM, hlow, hdiag, hdet, fun u => (C52_matrix_transform hM u).2 ?_⟩
  intro f hf
  have hdu : (momentMatrix ev moments c u).det ≠ 0 := by
    rw [← shiftMatrix_mul hd u, det_mul, hdet, one_mul]; exact hd
  have h0 : momentMatrix ev moments c u *ᵥ f = 0 := funext hf
  have := congrArg ((momentMatrix ev moments c u)⁻¹ *ᵥ ·) h0
  simpa [mulVec_mulVec, nonsing_inv_mul _ (isUnit_iff_ne_zero.2 hdu)] using this

/-- C52: `central_moment_reduced_monomial_to_polynomial_matrix` gives the polynomial central moments from the central moments of the
reduced monomials, provided the given matrix represents the polynomials by the reduced monomials on the velocities and the
shift matrix of the monomials is regular. -/
theorem C52_reduced_matrix {P' : Type} {evMono : P' → (Fin D → K) → K} {monos : Fin Q → P'}
    {PMono : Matrix (Fin Q) (Fin Q) K} {R : (Fin D → K) → Matrix (Fin Q) (Fin Q) K}
    (h : reducedMatrix evMono monos ev moments c PMono = .ok R)
    (hP : ∀ i q, ev (moments i) (c q) = ∑ j, PMono i j * evMono (monos j) (c q)) (u : Fin D → K)
    (hu : ∀ f, (∀ i, Spec.cmom c (evMono (monos i)) u f = 0) → f = 0) (f : Fin Q → K) (i : Fin Q) :
    (R u *ᵥ fun j => Spec.cmom c (evMono (monos j)) u f) i = Spec.cmom c (ev (moments i)) u f := by
  unfold reducedMatrix at h
  cases hs : setUpShiftMatrix evMono monos c with
  | error e => rw [hs] at h; cases h
  | ok N =>
    cases hs' : setUpShiftMatrix ev moments c with
    | error e => rw [hs, hs'] at h; cases h
    | ok NP =>
      rw [hs, hs'] at h
      cases h
      obtain ⟨hd, hN, -, -⟩ := setUp_ok hs
      obtain ⟨h1, -⟩ := C52_shift_matrix hs
      obtain ⟨h2, -⟩ := C52_shift_matrix hs'
      have hdet : IsUnit (N u).det := by
        refine isUnit_iff_ne_zero.2 fun h0 => ?_
        have hdu : (momentMatrix evMono monos c u).det = 0 := by
          rw [← shiftMatrix_mul hd u, ← hN, det_mul, h0, zero_mul]
        obtain ⟨v, hv, hv0⟩ := exists_mulVec_eq_zero_iff.2 hdu
        exact hv (hu v fun i => congrFun hv0 i)
      have e1 : (fun j => Spec.cmom c (evMono (monos j)) u f) = N u *ᵥ fun j => Spec.cmom c (evMono (monos j)) 0 f :=
        funext fun j => (h1 u f j).symm
      have e2 : PMono *ᵥ (fun j => Spec.cmom c (evMono (monos j)) 0 f) = fun j => Spec.cmom c (ev (moments j)) 0 f := by
        funext j
        simp only [mulVec, dotProduct, Spec.cmom, sub_zero, hP, Finset.sum_mul, Finset.mul_sum]
        rw [Finset.sum_comm]
        exact Finset.sum_congr rfl fun q _ => Finset.sum_congr rfl fun k _ => by ring
      rw [e1, mulVec_mulVec, Matrix.mul_assoc, nonsing_inv_mul _ hdet, Matrix.mul_one, ← mulVec_mulVec, e2, h2]

end Generic

/-! ### The sets of the library -/

end CentralMoments

namespace Spec

/-- total degree of a polynomial -/
def degree (p : PExpr) : ℕ := p.expand.foldl (fun d t => max d t.2.sum) 0

/-- Moving the origin changes every moment only by combinations of moments of lower degree. -/
def GradedSet (st : List (List ℤ)) (ps : List PExpr) : Prop :=
  ∀ (K : Type) [Field K] [CharZero K] (w : Fin 3 → K), ∀ p ∈ ps, ∃ a : PExpr → K, (∀ p', degree p ≤ degree p' → a p' = 0) ∧
    ∀ x ∈ st, p.eval ((fun k : Fin 3 => ((x.getD k 0 : ℤ) : K)) - w) =
      p.eval (fun k => ((x.getD k 0 : ℤ) : K)) + (ps.map fun p' => a p' * p'.eval fun k => ((x.getD k 0 : ℤ) : K)).sum

end Spec

namespace CentralMoments

variable {K : Type} [Field K]

namespace Taylor

/-- factor of a divided derivative of a monomial -/
def factor {R : Type} [CommRing R] (k e : ℕ) (x : R) : R := (e.choose k : R) * x ^ (e - k)

/-- divided derivative of a polynomial -/
def hasse {R : Type} [CommRing R] (α : ℕ × ℕ × ℕ) (p : PExpr) (v : Fin 3 → R) : R :=
  (p.expand.map fun t => (t.1 : R) * (factor α.1 (t.2.getD 0 0) (v 0) * factor α.2.1 (t.2.getD 1 0) (v 1) *
    factor α.2.2 (t.2.getD 2 0) (v 2))).sum

def orders : Finset (ℕ × ℕ × ℕ) := Finset.range 5 ×ˢ Finset.range 5 ×ˢ Finset.range 5

theorem sub_pow_eq {R : Type} [CommRing R] (x w : R) {e : ℕ} (h : e < 5) :
    (x - w) ^ e = ∑ k ∈ Finset.range 5, (-w) ^ k * factor k e x := by
  rw [sub_eq_add_neg, add_comm, add_pow]
  refine (Finset.sum_subset (Finset.range_subset_range.2 h) fun k _ hk => ?_).trans
    (Finset.sum_congr rfl fun k _ => by unfold factor; ring)
  rw [Nat.choose_eq_zero_of_lt (by simpa using hk)]
  simp

theorem monomial_three {R : Type} [CommRing R] (e : List ℕ) (he : e.length = 3) (a b c : R) :
    Spec.monomial e [a, b, c] = a ^ e.getD 0 0 * b ^ e.getD 1 0 * c ^ e.getD 2 0 := by
  match e, he with
  | [i, j, k], _ => simp [Spec.monomial, mul_assoc]

theorem terms {R : Type} [CommRing R] (x w : Fin 3 → R) (l : MPoly ℤ) (hl : ∀ t ∈ l, t.2.length = 3)
    (h4 : ∀ t ∈ l, ∀ e ∈ t.2, e < 5) :
    PExpr.evalM l [x 0 - w 0, x 1 - w 1, x 2 - w 2] = ∑ α ∈ orders, (-w 0) ^ α.1 * (-w 1) ^ α.2.1 * (-w 2) ^ α.2.2 *
      (l.map fun t => (t.1 : R) * (factor α.1 (t.2.getD 0 0) (x 0) * factor α.2.1 (t.2.getD 1 0) (x 1) *
        factor α.2.2 (t.2.getD 2 0) (x 2))).sum := by
  induction l with
  | nil => simp [PExpr.evalM_nil]
  | cons t l ih =>
    obtain ⟨n, e⟩ := t
    have he := hl (n, e) (by simp)
    have h4' := h4 (n, e) (by simp)
    rw [PExpr.evalM_cons, ih (fun t ht => hl t (by simp [ht])) fun t ht => h4 t (by simp [ht]), monomial_three e he]
    have hg : ∀ k, e.getD k 0 < 5 := by
      intro k
      by_cases hk : k < e.length
      · rw [List.getD_eq_getElem _ _ hk]; exact h4' _ (List.getElem_mem hk)
      · rw [List.getD_eq_default _ _ (by omega)]; omega
    rw [sub_pow_eq _ _ (hg 0), sub_pow_eq _ _ (hg 1), sub_pow_eq _ _ (hg 2)]
    simp only [List.map_cons, List.sum_cons, mul_add, Finset.sum_add_distrib]
    congr 1
    rw [orders, Finset.sum_product, mul_assoc, Finset.sum_mul, Finset.mul_sum]
    refine Finset.sum_congr rfl fun i _ => ?_
    rw [Finset.sum_product, Finset.sum_mul_sum, Finset.mul_sum, Finset.mul_sum]
    refine Finset.sum_congr rfl fun j _ => ?_
    rw [Finset.mul_sum, Finset.mul_sum]
    refine Finset.sum_congr rfl fun k _ => ?_
    ring

theorem taylor {R : Type} [CommRing R] (p : PExpr) (h4 : ∀ t ∈ p.expand, ∀ e ∈ t.2, e < 5) (x w : Fin 3 → R) :
    p.eval (x - w) = ∑ α ∈ orders, (-w 0) ^ α.1 * (-w 1) ^ α.2.1 * (-w 2) ^ α.2.2 * hasse α p x := by
  rw [← (PExpr.expand_spec p).2]
  exact terms x w p.expand (PExpr.expand_spec (R := R) p).1 h4

theorem hasse_zero {R : Type} [CommRing R] (p : PExpr) (h4 : ∀ t ∈ p.expand, ∀ e ∈ t.2, e < 5) (x : Fin 3 → R) :
    hasse (0, 0, 0) p x = p.eval x := by
  have := taylor p h4 x 0
  rw [sub_zero, Finset.sum_eq_single (0, 0, 0)] at this
  · simpa using this.symm
  · rintro ⟨i, j, k⟩ - hne
    have : i ≠ 0 ∨ j ≠ 0 ∨ k ≠ 0 := by
      by_contra hc
      push Not at hc
      exact hne (by simp [hc])
    rcases this with h | h | h <;> simp [h]
  · intro h
    exact absurd (by decide) h

theorem hasse_cast {K : Type} [Field K] (α : ℕ × ℕ × ℕ) (p : PExpr) (x : Fin 3 → ℤ) :
    hasse α p (fun i => (x i : K)) = ((hasse α p x : ℤ) : K) := by
  unfold hasse factor
  rw [Int.cast_list_sum, List.map_map]
  congr 1
  refine List.map_congr_left fun t _ => ?_
  simp

theorem eval_cast {K : Type} [Field K] (p : PExpr) (x : Fin 3 → ℤ) : p.eval (fun i => (x i : K)) = ((p.eval x : ℤ) : K) := by
  induction p <;> simp_all [PExpr.eval]

/-- the components of a direction -/
def comp (x : List ℤ) : Fin 3 → ℤ := fun i => x.getD i 0

/-- terms of a divided derivative -/
def derivTerms (a b c : ℕ) : MPoly ℤ → MPoly ℤ
  | [] => []
  | t :: l =>
    let e0 := t.2.getD 0 0
    let e1 := t.2.getD 1 0
    let e2 := t.2.getD 2 0
    if a ≤ e0 ∧ b ≤ e1 ∧ c ≤ e2 then
      (t.1 * ((e0.choose a : ℤ) * (e1.choose b : ℤ) * (e2.choose c : ℤ)), [e0 - a, e1 - b, e2 - c]) :: derivTerms a b c l
    else derivTerms a b c l

/-- value of a list of terms -/
def valueTerms (x : List ℤ) : MPoly ℤ → ℤ
  | [] => 0
  | t :: l => t.1 * (x.getD 0 0 ^ t.2.getD 0 0 * x.getD 1 0 ^ t.2.getD 1 0 * x.getD 2 0 ^ t.2.getD 2 0) + valueTerms x l

theorem valueTerms_derivTerms (a b c : ℕ) (p : PExpr) (x : List ℤ) :
    valueTerms x (derivTerms a b c p.expand) = hasse (a, b, c) p (comp x) := by
  unfold hasse
  generalize p.expand = l
  induction l with
  | nil => rfl
  | cons t l ih =>
    rw [List.map_cons, List.sum_cons, ← ih, derivTerms]
    dsimp only
    split
    · rw [valueTerms]
      simp only [factor, comp, List.getD_cons_zero, List.getD_cons_succ]
      simp only [Int.cast_id]
      congr 1
      simp only [Fin.isValue, Fin.val_zero, Fin.val_one, Fin.val_two]
      ring
    · rename_i hn
      have : (t.2.getD 0 0).choose a = 0 ∨ (t.2.getD 1 0).choose b = 0 ∨ (t.2.getD 2 0).choose c = 0 := by
        by_contra hc
        push Not at hc
        simp only [ne_eq, Nat.choose_eq_zero_iff, not_lt] at hc
        exact hn hc
      rcases this with h | h | h <;> simp only [factor, h, Nat.cast_zero, zero_mul, mul_zero, zero_add]

/-- degree of an expanded polynomial -/
def degreeTerms (l : MPoly ℤ) : ℕ := l.foldl (fun d t => max d t.2.sum) 0

/-- a certificate: common denominator, polynomials, their divided derivatives as combinations -/
abbrev Graded := ℤ × List (MPoly ℤ × List ((ℕ × ℕ × ℕ) × List (ℕ × ℤ)))

def comboValue (terms : List (MPoly ℤ × List ((ℕ × ℕ × ℕ) × List (ℕ × ℤ)))) (x : List ℤ) : List (ℕ × ℤ) → ℤ
  | [] => 0
  | c :: l => c.2 * valueTerms x (terms.getD c.1 ([], [])).1 + comboValue terms x l

/-- the check done by the kernel: on the velocities, all divided derivatives of a moment are combinations of moments of lower degree -/
def gradedOk (st : List (List ℤ)) (cert : Graded) : Bool :=
  (cert.1 != 0) && cert.2.all fun p =>
    (p.1.all fun t => t.2.all fun e => decide (e < 5)) &&
    (List.range 5).all fun a => (List.range 5).all fun b => (List.range 5).all fun c =>
      (a == 0 && b == 0 && c == 0) ||
      match derivTerms a b c p.1 with
      | [] => true
      | t :: l =>
        match p.2.lookup (a, b, c) with
        | none => false
        | some combo => (combo.all fun j => decide (degreeTerms (cert.2.getD j.1 ([], [])).1 < degreeTerms p.1)) &&
            st.all fun x => cert.1 * valueTerms x (t :: l) == comboValue cert.2 x combo

end Taylor

open Taylor

/-- coefficient of the polynomial with index `j` in a combination -/
def comboCoeff (combo : List (ℕ × ℤ)) (j : ℕ) : ℤ := (combo.map fun c => if c.1 = j then c.2 else 0).sum

theorem valueTerms_eq (p : PExpr) (x : List ℤ) : valueTerms x p.expand = p.eval (comp x) := by
  have h := (PExpr.expand_spec (R := ℤ) p).2 (comp x)
  rw [← h]
  have hl := (PExpr.expand_spec (R := ℤ) p).1
  generalize p.expand = l at hl
  induction l with
  | nil => rfl
  | cons t l ih =>
    obtain ⟨n, e⟩ := t
    rw [valueTerms, PExpr.evalM_cons, ih fun t ht => hl t (by simp [ht]), monomial_three e (hl (n, e) (by simp))]
    simp [Taylor.comp]

theorem comboValue_eq {ps : List PExpr} {terms : List (MPoly ℤ × List ((ℕ × ℕ × ℕ) × List (ℕ × ℤ)))}
    (hE : terms.map Prod.fst = ps.map PExpr.expand) (x : List ℤ) (combo : List (ℕ × ℤ)) :
    comboValue terms x combo = ∑ j : Fin ps.length, comboCoeff combo j * (ps.get j).eval (comp x) := by
  have hlen : terms.length = ps.length := by simpa using congrArg List.length hE
  induction combo with
  | nil => simp [comboValue, comboCoeff]
  | cons c l ih =>
    rw [comboValue, ih]
    simp only [comboCoeff, List.map_cons, List.sum_cons, add_mul, Finset.sum_add_distrib]
    congr 1
    by_cases hc : c.1 < ps.length
    · rw [Finset.sum_eq_single ⟨c.1, hc⟩]
      · have h1 : (terms.getD c.1 ([], [])).1 = (ps.get ⟨c.1, hc⟩).expand := by
          rw [List.getD_eq_getElem _ _ (by omega)]
          have := congrArg (fun l => l[c.1]?) hE
          simp only [List.getElem?_map, List.getElem?_eq_getElem (show c.1 < terms.length by omega),
            List.getElem?_eq_getElem hc, Option.map_some, Option.some.injEq] at this
          exact this
        rw [h1, valueTerms_eq]
        simp
      · intro j _ hj
        rw [if_neg fun h => hj (Fin.ext h.symm), zero_mul]
      · simp
    · rw [Finset.sum_eq_zero, List.getD_eq_default _ _ (by omega)]
      · simp [valueTerms]
      · intro j _
        rw [if_neg (by have := j.isLt; omega), zero_mul]

theorem graded_of_cert {st : List (List ℤ)} {ps : List PExpr} {cert : Graded} (hnd : ps.Nodup)
    (hE : cert.2.map Prod.fst = ps.map PExpr.expand) (h : gradedOk st cert = true) : Spec.GradedSet st ps := by
  obtain ⟨d, terms⟩ := cert
  dsimp only at hE
  have hlen : terms.length = ps.length := by simpa using congrArg List.length hE
  have hEg : ∀ (j : ℕ) (hj : j < ps.length), terms[j].1 = ps[j].expand := by
    intro j hj
    have := congrArg (fun l => l[j]?) hE
    simp only [List.getElem?_map, List.getElem?_eq_getElem (show j < terms.length by omega),
      List.getElem?_eq_getElem hj, Option.map_some, Option.some.injEq] at this
    exact this
  unfold gradedOk at h
  rw [Bool.and_eq_true, bne_iff_ne, List.all_eq_true] at h
  obtain ⟨hd, h⟩ := h
  intro K _ _ w p hp
  obtain ⟨i, rfl⟩ := List.get_of_mem hp
  have hdK : (d : K) ≠ 0 := by exact_mod_cast hd
  have hi := h _ (List.getElem_mem (show (i : ℕ) < terms.length by have := i.isLt; omega))
  rw [Bool.and_eq_true] at hi
  obtain ⟨h5, hall⟩ := hi
  rw [hEg i i.isLt] at h5 hall
  have hp5 : ∀ t ∈ (ps.get i).expand, ∀ e ∈ t.2, e < 5 := by
    intro t ht e he
    simp only [List.all_eq_true, decide_eq_true_eq] at h5
    exact h5 t ht e he
  -- coefficients of the divided derivatives
  have hb : ∀ α ∈ orders.erase (0, 0, 0), ∃ b : Fin ps.length → ℤ,
      (∀ j, Spec.degree (ps.get i) ≤ Spec.degree (ps.get j) → b j = 0) ∧
      ∀ x ∈ st, d * hasse α (ps.get i) (comp x) = ∑ j, b j * (ps.get j).eval (comp x) := by
    rintro ⟨a1, a2, a3⟩ hα
    rw [Finset.mem_erase, orders, Finset.mem_product, Finset.mem_product] at hα
    obtain ⟨hne, ha1, ha2, ha3⟩ := hα
    simp only [Finset.mem_range] at ha1 ha2 ha3
    rw [List.all_eq_true] at hall
    have t2 := hall a1 (List.mem_range.2 ha1)
    rw [List.all_eq_true] at t2
    have t3 := t2 a2 (List.mem_range.2 ha2)
    rw [List.all_eq_true] at t3
    have t4 := t3 a3 (List.mem_range.2 ha3)
    rw [Bool.or_eq_true] at t4
    rcases t4 with t4 | t4
    · simp only [Bool.and_eq_true, beq_iff_eq] at t4
      exact absurd (by simp [t4]) hne
    · have hv : ∀ x, hasse (a1, a2, a3) (ps.get i) (comp x) = valueTerms x (derivTerms a1 a2 a3 (ps.get i).expand) := fun x =>
        (valueTerms_derivTerms a1 a2 a3 (ps.get i) x).symm
      rcases hD : derivTerms a1 a2 a3 (ps.get i).expand with _ | ⟨t, l⟩
      · exact ⟨fun _ => 0, fun _ _ => rfl, fun x _ => by rw [hv, hD]; simp [valueTerms]⟩
      · have hD' : derivTerms a1 a2 a3 ps[(i : ℕ)].expand = t :: l := hD
        rw [hD'] at t4
        dsimp only at t4
        rcases hL : (terms[(i : ℕ)]'(by have := i.isLt; omega)).2.lookup (a1, a2, a3) with _ | combo
        · rw [hL] at t4
          cases t4
        · rw [hL] at t4
          simp only [Bool.and_eq_true, List.all_eq_true, decide_eq_true_eq, beq_iff_eq] at t4
          obtain ⟨t5, t6⟩ := t4
          refine ⟨fun j => comboCoeff combo j, fun j hj => ?_, fun x hx => ?_⟩
          · unfold comboCoeff
            refine List.sum_eq_zero fun n hn => ?_
            obtain ⟨c, hc, rfl⟩ := List.mem_map.1 hn
            by_cases hcj : c.1 = j
            · have := t5 c hc
              rw [hcj, List.getD_eq_getElem _ _ (by have := j.isLt; omega), hEg j j.isLt] at this
              exact absurd this (by
                show ¬ Spec.degree (ps.get j) < Spec.degree (ps.get i)
                omega)
            · rw [if_neg hcj]
          · rw [hv, hD, t6 x hx, comboValue_eq hE]
  choose! b hb0 hrep using hb
  let mono : ℕ × ℕ × ℕ → K := fun α => (-w 0) ^ α.1 * (-w 1) ^ α.2.1 * (-w 2) ^ α.2.2
  let co : Fin ps.length → K := fun j => ∑ α ∈ orders.erase (0, 0, 0), mono α * ((b α j : K) / d)
  refine ⟨fun p' => if h : ps.idxOf p' < ps.length then co ⟨ps.idxOf p', h⟩ else 0, fun p' hij => ?_, fun x hx => ?_⟩
  · dsimp only
    split
    · rename_i hlt
      refine Finset.sum_eq_zero fun α hα => ?_
      rw [hb0 α hα _ (by simpa using hij)]
      simp
    · rfl
  · have ex : ∀ p : PExpr, p.eval (fun k => ((x.getD k 0 : ℤ) : K)) = ((p.eval (comp x) : ℤ) : K) :=
      fun p => eval_cast p (comp x)
    rw [taylor (R := K) _ hp5, ← Finset.add_sum_erase _ _ (by decide : ((0, 0, 0) : ℕ × ℕ × ℕ) ∈ orders), hasse_zero _ hp5]
    simp only [pow_zero, one_mul]
    congr 1
    have hsum : (ps.map fun p' => (if h : ps.idxOf p' < ps.length then co ⟨ps.idxOf p', h⟩ else 0) *
        p'.eval fun k => ((x.getD k 0 : ℤ) : K)).sum =
        ∑ j, co j * (ps.get j).eval fun k => ((x.getD k 0 : ℤ) : K) := by
      rw [← List.sum_ofFn]
      congr 1
      refine List.ext_getElem (by simp) fun n h1 h2 => ?_
      have hn : n < ps.length := by simpa using h1
      simp only [List.getElem_map, List.getElem_ofFn]
      have hi : ps.idxOf ps[n] = n := hnd.idxOf_getElem n hn
      simp only [hi, dif_pos hn]
      rfl
    rw [hsum]
    simp only [co, Finset.sum_mul]
    rw [Finset.sum_comm]
    refine Finset.sum_congr rfl fun α hα => ?_
    have e3 : hasse α (ps.get i) (fun k => ((x.getD k 0 : ℤ) : K)) = ((hasse α (ps.get i) (comp x) : ℤ) : K) := hasse_cast α _ _
    rw [e3]
    have e2 : ∑ j, (b α j : K) * (ps.get j).eval (fun k => ((x.getD k 0 : ℤ) : K)) = d * (hasse α (ps.get i) (comp x) : ℤ) := by
      simp only [ex]
      exact_mod_cast (hrep α hα x hx).symm
    have : ((hasse α (ps.get i) (comp x) : ℤ) : K) =
        (∑ j, (b α j : K) * (ps.get j).eval (fun k => ((x.getD k 0 : ℤ) : K))) / d := by
      rw [e2]; field_simp
    rw [this, div_eq_mul_inv, Finset.sum_mul, Finset.mul_sum]
    refine Finset.sum_congr rfl fun j _ => ?_
    show _ = mono α * (↑(b α j) / ↑d) * _
    simp only [mono]
    ring

/-- the certificates, with the stencils (ordering `walberla`) they are for -/
def defaultData : List (String × List (List ℤ) × Graded) :=
  [("D2Q9", Tables.D2Q9_walberla, Expansions.default_D2Q9), ("D3Q7", Tables.D3Q7_walberla, Expansions.default_D3Q7),
   ("D3Q15", Tables.D3Q15_walberla, Expansions.default_D3Q15), ("D3Q19", Tables.D3Q19_walberla, Expansions.default_D3Q19),
   ("D3Q27", Tables.D3Q27_walberla, Expansions.default_D3Q27)]

def cascadedData : List (String × List (List ℤ) × Graded) :=
  [("D2Q9", Tables.D2Q9_walberla, Expansions.cascaded_D2Q9), ("D3Q7", Tables.D3Q7_walberla, Expansions.cascaded_D3Q7),
   ("D3Q15", Tables.D3Q15_walberla, Expansions.cascaded_D3Q15), ("D3Q19", Tables.D3Q19_walberla, Expansions.cascaded_D3Q19),
   ("D3Q27", Tables.D3Q27_walberla, Expansions.cascaded_D3Q27)]

theorem defaultData_ok : ∀ c ∈ defaultData, gradedOk c.2.1 c.2.2 = true := by
  intro c hc
  simp only [defaultData, List.mem_cons, List.not_mem_nil, or_false] at hc
  rcases hc with rfl | rfl | rfl | rfl | rfl
  · decide +kernel
  · decide +kernel
  · decide +kernel
  · decide +kernel
  · decide +kernel

theorem cascadedData_ok : ∀ c ∈ cascadedData, gradedOk c.2.1 c.2.2 = true := by
  intro c hc
  simp only [cascadedData, List.mem_cons, List.not_mem_nil, or_false] at hc
  rcases hc with rfl | rfl | rfl | rfl | rfl
  · decide +kernel
  · decide +kernel
  · decide +kernel
  · decide +kernel
  · decide +kernel

/-- the certificates belong to the sets -/
def matchesSets (data : List (String × List (List ℤ) × Graded)) (sets : List (List ℤ) → Option (List PExpr)) : Bool :=
  Tables.predefined.all fun e => (e.2.1 != "walberla") || match sets e.2.2 with
    | none => true
    | some ps => decide ps.Nodup && data.any fun c =>
        decide (c.2.1 = e.2.2) && decide (c.2.2.2.map Prod.fst = ps.map PExpr.expand)

theorem graded_of_data {data : List (String × List (List ℤ) × Graded)}
    {sets : List (List ℤ) → Option (List PExpr)} (hok : ∀ c ∈ data, gradedOk c.2.1 c.2.2 = true)
    (h : matchesSets data sets = true)
    (hs : ∀ e ∈ Tables.predefined, ∀ e' ∈ Tables.predefined, e.1 = e'.1 → sets e.2.2 = sets e'.2.2) :
    ∀ e ∈ Tables.predefined, ∀ ps ∈ sets e.2.2, Spec.GradedSet e.2.2 ps := by
  intro e he ps hps
  obtain ⟨e', he', h1, h2⟩ := walberla_exists e he
  unfold matchesSets at h
  rw [List.all_eq_true] at h
  have h3 := h e' he'
  rw [h2, hs e' he' e he h1, Option.mem_def.1 hps] at h3
  simp only [bne_self_eq_false, Bool.false_or, Bool.and_eq_true, decide_eq_true_eq, List.any_eq_true] at h3
  obtain ⟨hnd, c, hc, hst, hE⟩ := h3
  intro K _ _ w p hp
  obtain ⟨a, ha, hr⟩ := graded_of_cert hnd hE (hok c hc) K w p hp
  exact ⟨a, ha, fun x hx => hr x (hst ▸ (C13_orderings_agree e' he' e he h1).mem_iff.2 hx)⟩

theorem graded_default : ∀ e ∈ Tables.predefined, ∀ ps ∈ defaultMomentSet (e.2.2.headD []).length e.2.2.length,
    Spec.GradedSet e.2.2 ps :=
  graded_of_data defaultData_ok (sets := fun st => defaultMomentSet (st.headD []).length st.length)
    (by decide +kernel) (by decide +kernel)

theorem graded_cascaded : ∀ e ∈ Tables.predefined, ∀ ps ∈ (cascadedMomentSets e.2.2).map List.flatten,
    Spec.GradedSet e.2.2 ps :=
  graded_of_data cascadedData_ok (sets := fun st => (cascadedMomentSets st).map List.flatten)
    (by decide +kernel) (by decide +kernel)

/-- the velocities of a stencil -/
def velocities (K : Type) [Field K] (st : List (List ℤ)) (D : ℕ) (q : Fin st.length) (a : Fin D) : K :=
  (((st.get q).getD a 0 : ℤ) : K)

theorem pev_velocities (st : List (List ℤ)) (D : ℕ) (hD : ∀ x ∈ st, x.length = D) (p : PExpr) (q : Fin st.length)
    (u : Fin D → K) : pev p (velocities K st D q - u) = p.eval ((fun k : Fin 3 => (((st.get q).getD k 0 : ℤ) : K)) -
      fun k : Fin 3 => if h : k.val < D then u ⟨k, h⟩ else 0) := by
  unfold pev
  congr 1
  funext k
  rw [Pi.sub_apply]
  by_cases h : k.val < D
  · rw [dif_pos h, dif_pos h]; rfl
  · rw [dif_neg h, dif_neg h, List.getD_eq_default _ _ (by rw [hD _ (List.get_mem _ _)]; omega)]; simp

theorem pev_velocities_zero (st : List (List ℤ)) (D : ℕ) (hD : ∀ x ∈ st, x.length = D) (p : PExpr) (q : Fin st.length) :
    pev p (velocities K st D q) = ((p.at' (st.get q) : ℤ) : K) := by
  have := pev_velocities (K := K) st D hD p q 0
  rw [sub_zero] at this
  rw [this, PExpr.at', ← Taylor.eval_cast]
  congr 1
  funext k
  simp

theorem det_of_unisolvent [CharZero K] (st : List (List ℤ)) (D : ℕ) (hD : ∀ x ∈ st, x.length = D) {ps : List PExpr}
    (hu : Spec.Unisolvent st ps) (qs : Fin st.length → PExpr) (hp : (List.ofFn qs).Perm ps) :
    (momentMatrix pev qs (velocities K st D) 0).det ≠ 0 := by
  intro h0
  obtain ⟨v, hv, hv0⟩ := exists_mulVec_eq_zero_iff.2 h0
  obtain ⟨f, -, hun⟩ := hu.2 K 0
  have h1 : v = f := hun v fun i => by
    obtain ⟨k, hk⟩ := (List.mem_ofFn' qs _).1 (hp.symm.subset (List.get_mem ps i))
    have := congrFun hv0 k
    simp only [mulVec, dotProduct, momentMatrix_zero, pev_velocities_zero st D hD, hk] at this
    exact this
  have h2 : (0 : Fin st.length → K) = f := hun 0 fun i => by simp
  exact hv (h1.trans h2.symm)

theorem triangular_of_graded [CharZero K] (st : List (List ℤ)) (D : ℕ) (hD : ∀ x ∈ st, x.length = D) {ps : List PExpr}
    (hg : Spec.GradedSet st ps) (qs : Fin st.length → PExpr) (hp : (List.ofFn qs).Perm ps)
    (hs : ∀ i j, i ≤ j → Spec.degree (qs i) ≤ Spec.degree (qs j)) :
    Spec.Triangular (velocities K st D) fun i => pev (qs i) := by
  intro u i
  obtain ⟨a, ha, hr⟩ := hg K (fun k => if h : k.val < D then u ⟨k, h⟩ else 0) (qs i)
    (hp.subset ((List.mem_ofFn' qs _).2 ⟨i, rfl⟩))
  refine ⟨fun j => a (qs j), fun j hij => ha _ (hs i j hij), fun q => ?_⟩
  have h0 : ∀ p : PExpr, pev p (velocities K st D q) = p.eval fun k => (((st.get q).getD k 0 : ℤ) : K) := by
    intro p
    rw [pev_velocities_zero st D hD, PExpr.at', ← Taylor.eval_cast]
  dsimp only
  rw [pev_velocities st D hD, hr _ (List.get_mem _ _)]
  simp only [h0]
  congr 1
  rw [← (hp.map _).sum_eq, List.map_ofFn, List.sum_ofFn]
  rfl

theorem predefined_lengths : ∀ e ∈ Tables.predefined, ∀ x ∈ e.2.2, x.length = (e.2.2.headD []).length := by decide +kernel

/-- the sets of moments the library offers for a stencil -/
def Offered (st : List (List ℤ)) (ps : List PExpr) : Prop :=
  ps ∈ defaultMomentSet (st.headD []).length st.length ∨ ∃ g ∈ cascadedMomentSets st, ps = g.flatten

/-- C52: every default set and every cascaded set, on every predefined stencil and in every order of
non-decreasing degree, has a shift matrix; it is lower triangular with unit diagonal, and the transforms to central moments and back are
defined and inverse to each other for every velocity. -/
theorem C52_offered_sets [CharZero K] : ∀ e ∈ Tables.predefined, ∀ ps, Offered e.2.2 ps → ∀ qs : Fin e.2.2.length → PExpr,
    (List.ofFn qs).Perm ps → (∀ i j, i ≤ j → Spec.degree (qs i) ≤ Spec.degree (qs j)) →
    ∃ N t, setUpShiftMatrix pev qs (velocities K e.2.2 (e.2.2.headD []).length) = .ok N ∧
      matrixTransform pev qs (velocities K e.2.2 (e.2.2.headD []).length) = .ok t ∧
      (∀ u i j, i < j → N u i j = 0) ∧ (∀ u i, N u i i = 1) ∧ (∀ u, (N u).det = 1) ∧
      (∀ u, t.backward u * t.forward u = 1 ∧ t.forward u * t.backward u = 1) := by
  intro e he ps ho qs hp hs
  have hD := predefined_lengths e he
  obtain ⟨b1, b2, -⟩ := C47_moment_sets_are_bases e he
  have hb : Spec.Unisolvent e.2.2 ps ∧ Spec.GradedSet e.2.2 ps := by
    rcases ho with h | ⟨g, h, rfl⟩
    · exact ⟨b1 _ h, graded_default e he _ h⟩
    · exact ⟨b2 _ h, graded_cascaded e he _ (Option.mem_map.2 ⟨g, h, rfl⟩)⟩
  exact C52_triangular (det_of_unisolvent _ _ hD hb.1 qs hp) (triangular_of_graded _ _ hD hb.2 qs hp hs)

/-- C52: the cascaded sets, which `create_central_moment` uses by default, are given in such an order. -/
theorem C52_cascaded_order : ∀ e ∈ Tables.predefined, ∀ g ∈ cascadedMomentSets e.2.2,
    (g.flatten.map Spec.degree).Pairwise (· ≤ ·) := by decide +kernel

/-- D3Q27 has 27 default moments of degrees 0 to 6 -/
example : ∃ ps, defaultMomentSet 3 27 = some ps ∧ ps.length = 27 ∧ (ps.map Spec.degree).max? = some 6 :=
  ⟨_, rfl, by decide +kernel, by decide +kernel⟩

/-! ### The assertion on the trace -/

namespace Witness
open PExpr

/-- moments on D2Q9 in the order of their degrees -/
def moments : List PExpr := [1, x, y, x ^ 2, x * y, y ^ 2, x ^ 2 * y, x * y ^ 4, x ^ 2 * (2 * y ^ 2 - y ^ 4)]

def cert : Certificates.Certificate :=
  (4,
    [[1, 1, 1, 1, 1, 1, 1, 1, 1],
     [0, 0, 0, -1, 1, -1, 1, -1, 1],
     [0, 1, -1, 0, 0, 1, 1, -1, -1],
     [0, 0, 0, 1, 1, 1, 1, 1, 1],
     [0, 0, 0, 0, 0, -1, 1, 1, -1],
     [0, 1, 1, 0, 0, 1, 1, 1, 1],
     [0, 0, 0, 0, 0, 1, 1, -1, -1],
     [0, 0, 0, 0, 0, -1, 1, -1, 1],
     [0, 0, 0, 0, 0, 1, 1, 1, 1]],
    [[4, 0, 0, -4, 0, -4, 0, 0, 4],
     [0, 0, 2, 0, 0, 2, -2, 0, -2],
     [0, 0, -2, 0, 0, 2, 2, 0, -2],
     [0, -2, 0, 2, 0, 0, 0, 2, -2],
     [0, 2, 0, 2, 0, 0, 0, -2, -2],
     [0, 0, 0, 0, -1, 0, 1, -1, 1],
     [0, 0, 0, 0, 1, 0, 1, 1, 1],
     [0, 0, 0, 0, 1, 0, -1, -1, 1],
     [0, 0, 0, 0, -1, 0, -1, 1, 1]])

theorem unisolvent : Spec.Unisolvent Tables.D2Q9_walberla moments := unisolvent_of_cert (cert := cert) (by decide +kernel)

/-- the shift matrix -/
noncomputable def N (w : Fin 2 → ℝ) : Matrix (Fin 9) (Fin 9) ℝ :=
  let u := w 0
  let v := w 1
  let g2 := 1 + 6 * v ^ 2
  let g1 := -4 * (v + v ^ 3)
  let g0 := v ^ 4
  let h2 := 1 - 6 * v ^ 2
  let h1 := 4 * v ^ 3
  let h0 := 2 * v ^ 2 - v ^ 4
  !![1, 0, 0, 0, 0, 0, 0, 0, 0;
     -u, 1, 0, 0, 0, 0, 0, 0, 0;
     -v, 0, 1, 0, 0, 0, 0, 0, 0;
     u ^ 2, -2 * u, 0, 1, 0, 0, 0, 0, 0;
     u * v, -v, -u, 0, 1, 0, 0, 0, 0;
     v ^ 2, 0, -2 * v, 0, 0, 1, 0, 0, 0;
     -u ^ 2 * v, 2 * u * v, u ^ 2, -v, -2 * u, 0, 1, 0, 0;
     -u * g0, g0, -u * g1, 0, g1, -u * g2, 0, g2, 0;
     u ^ 2 * h0, -2 * u * h0, u ^ 2 * h1, h0, -2 * u * h1, u ^ 2 * h2, h1, -2 * u * h2, h2]

theorem cube (q : Fin 9) (a : Fin 2) : velocities ℝ Tables.D2Q9_walberla 2 q a ^ 3 = velocities ℝ Tables.D2Q9_walberla 2 q a := by
  unfold velocities
  have : ∀ q : Fin 9, ∀ a : Fin 2, ((Tables.D2Q9_walberla.get q).getD a 0) ^ 3 = (Tables.D2Q9_walberla.get q).getD a 0 := by
    decide
  exact_mod_cast congrArg (Int.cast : ℤ → ℝ) (this q a)

theorem rows (X Y : ℝ) (i : Fin 9) : (moments.get i).eval ![X, Y, 0] =
    ![1, X, Y, X ^ 2, X * Y, Y ^ 2, X ^ 2 * Y, X * Y ^ 4, X ^ 2 * (2 * Y ^ 2 - Y ^ 4)] i := by
  fin_cases i
  · show ((1 : ℤ) : ℝ) = 1
    norm_num
  · rfl
  · rfl
  · rfl
  · rfl
  · rfl
  · rfl
  · rfl
  · show X ^ 2 * (((2 : ℤ) : ℝ) * Y ^ 2 - Y ^ 4) = X ^ 2 * (2 * Y ^ 2 - Y ^ 4)
    norm_num

theorem det_ne : (momentMatrix (Q := 9) pev (fun i => moments.get i) (velocities ℝ Tables.D2Q9_walberla 2) 0).det ≠ 0 :=
  det_of_unisolvent (K := ℝ) Tables.D2Q9_walberla 2 (by decide) unisolvent (fun i => moments.get i)
    (List.Perm.of_eq (List.ofFn_get moments))

theorem shift (w : Fin 2 → ℝ) :
    shiftMatrix (Q := 9) pev (fun i => moments.get i) (velocities ℝ Tables.D2Q9_walberla 2) w = N w := by
  refine shiftMatrix_eq (Q := 9) ?_ w _ fun i q => ?_
  · exact det_ne
  · have hx := cube q 0
    have hy := cube q 1
    have e : ∀ (p : PExpr) (z : Fin 2 → ℝ), pev p z = p.eval ![z 0, z 1, 0] := by
      intro p z
      unfold pev
      congr 1
      funext k
      fin_cases k <;> rfl
    rw [Fin.sum_univ_succ, Fin.sum_univ_eight]
    simp only [e, Pi.sub_apply]
    generalize velocities ℝ Tables.D2Q9_walberla 2 q 0 = X at *
    generalize velocities ℝ Tables.D2Q9_walberla 2 q 1 = Y at *
    have hx4 : X ^ 4 = X ^ 2 := by linear_combination X * hx
    have hy4 : Y ^ 4 = Y ^ 2 := by linear_combination Y * hy
    simp only [rows]
    fin_cases i <;> simp [N]
    · ring
    · ring
    · ring
    · ring
    · ring
    · ring
    · linear_combination (-4 * X * w 1 + 4 * w 0 * w 1) * hy + (-6 * X * w 1 ^ 2 - w 0) * hy4
    · linear_combination (-8 * X * w 0 * w 1 + 4 * X ^ 2 * w 1 + 4 * w 0 ^ 2 * w 1) * hy +
        (4 * X * w 0 - 12 * X * w 0 * w 1 ^ 2 - 6 * X ^ 2 * w 1 ^ 2 - w 0 ^ 2) * hy4

/-- C52: the assertions of `set_up_shift_matrix` do not establish a unit diagonal: for these moments, in the order of their
degrees, they hold, although two diagonal entries differ from 1 and the matrix is singular for some velocity, so that the central moments
do not determine the populations. -/
theorem C52_assertion_too_weak : ∃ N, setUpShiftMatrix (Q := 9) pev (fun i => moments.get i) (velocities ℝ Tables.D2Q9_walberla 2) =
      .ok N ∧ (∀ w, N w 7 7 = 1 + 6 * w 1 ^ 2) ∧ (∀ w, N w 8 8 = 1 - 6 * w 1 ^ 2) ∧ ∃ w, (N w).det = 0 := by
  have hdet : ∀ w, (N w).det = (1 + 6 * w 1 ^ 2) * (1 - 6 * w 1 ^ 2) := fun w => by
    rw [det_lower]
    · simp [Fin.prod_univ_succ, N]
    · intro i j hij
      fin_cases i <;> fin_cases j <;> first | rfl | exact absurd hij (by decide)
  have hlow : IsLower N := by
    intro w i j hij
    fin_cases i <;> fin_cases j <;> first | rfl | exact absurd hij (by decide)
  have hsh : shiftMatrix (Q := 9) pev (fun i => moments.get i) (velocities ℝ Tables.D2Q9_walberla 2) = N := funext shift
  refine ⟨N, ?_, fun w => ?_, fun w => ?_, ![0, √(1 / 6)], ?_⟩
  · unfold setUpShiftMatrix
    rw [hsh, if_neg det_ne, if_neg (not_not.2 hlow), if_neg (not_not.2 fun w => ?_)]
    simp [Fin.sum_univ_succ, N]
    ring
  · simp [N]
  · simp [N]
  · rw [hdet]
    simp

/-- the moments are ordered as required: by degree -/
example : (moments.map Spec.degree).Pairwise (· ≤ ·) := by decide +kernel

end Witness

/-- the order matters: with `x` before `1` the assertion fails -/
example : setUpShiftMatrix (Q := 2) (fun (p : Bool) (v : Fin 1 → ℚ) => if p then v 0 else 1) ![true, false] (fun q _ => (q : ℕ)) =
    .error .assertion := by
  have hM : momentMatrix (Q := 2) (fun (p : Bool) (v : Fin 1 → ℚ) => if p then v 0 else 1) ![true, false]
      (fun q _ => (q : ℕ)) 0 = !![0, 1; 1, 1] := by
    ext i j
    fin_cases i <;> fin_cases j <;> simp [momentMatrix]
  have hd : (momentMatrix (Q := 2) (fun (p : Bool) (v : Fin 1 → ℚ) => if p then v 0 else 1) ![true, false]
      (fun q _ => (q : ℕ)) 0).det ≠ 0 := by
    rw [hM, det_fin_two_of]
    norm_num
  have hN : shiftMatrix (Q := 2) (fun (p : Bool) (v : Fin 1 → ℚ) => if p then v 0 else 1) ![true, false]
      (fun q _ => (q : ℕ)) (fun _ => 1) = !![1, -1; 0, 1] := by
    refine shiftMatrix_eq hd _ _ fun i q => ?_
    fin_cases i <;> fin_cases q <;> simp
  unfold setUpShiftMatrix
  rw [if_neg hd, if_pos]
  intro h
  have := h (fun _ => 1) 0 1 (by decide)
  rw [hN] at this
  norm_num at this

end CentralMoments
end Lbm
