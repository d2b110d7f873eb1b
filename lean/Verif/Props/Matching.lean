/-
Property C50: populations obtained by matching moments have these moments and are unique; on the stencils with all
velocities in {-1,0,1}^D, matching the Maxwellian gives the product form, whose terms up to third order in the velocity are
the discrete Maxwellian; the moments up to third order of the second-order discrete Maxwellian are those of the continuous
one without the terms of third order.
-/
import Verif.Matching
import Verif.Props.Continuous
import Verif.Props.Equilibrium

namespace Lbm
namespace Matching

open MvPolynomial Continuous
open Spec (dot δ vel Isotropic3 Isotropic5)

/-! ### Homogeneous parts -/

theorem truncate_homogeneous {D : ℕ} {p : MvPolynomial (Fin D) ℝ} {n : ℕ} (hp : p.IsHomogeneous n) (k : ℕ) :
    truncate k p = if n ≤ k then p else 0 := by
  ext d
  rw [coeff_truncate]
  by_cases hd : coeff d p = 0
  · split <;> split <;> simp [hd]
  · have : d.degree = n := by
      have := hp hd
      rw [Finsupp.degree_eq_weight_one]
      exact this
    rw [this]
    split <;> simp

theorem isTruncation_of_eq {D k : ℕ} {F G : (Fin D → ℝ) → ℝ} (p q : MvPolynomial (Fin D) ℝ) (hF : ∀ u, eval u p = F u)
    (hG : ∀ u, eval u q = G u) (h : truncate k p = q) : Continuous.Spec.IsTruncation k F G := by
  have := isTruncation_truncate k p hF
  rw [h] at this
  have hg : G = fun u => eval u q := _root_.funext fun u => (hG u).symm
  rw [hg]
  exact this

theorem isTruncation_self {D k : ℕ} {F : (Fin D → ℝ) → ℝ} (p : MvPolynomial (Fin D) ℝ) (hF : ∀ u, eval u p = F u)
    (hp : p.totalDegree ≤ k) : Continuous.Spec.IsTruncation k F F :=
  isTruncation_of_eq p p hF hF (truncate_of_le hp)

theorem IsTruncation.const_mul {D k : ℕ} {F G : (Fin D → ℝ) → ℝ} (h : Continuous.Spec.IsTruncation k F G) (a : ℝ) :
    Continuous.Spec.IsTruncation k (fun u => a * F u) (fun u => a * G u) := by
  obtain ⟨p, hp, hG⟩ := h
  have hu := Continuous.Spec.IsTruncation.unique ⟨p, hp, hG⟩ (isTruncation_truncate k p hp)
  refine isTruncation_of_eq (C a * p) (C a * truncate k p) (fun u => by rw [map_mul, eval_C, hp])
    (fun u => by rw [map_mul, eval_C, hu]) ?_
  ext d
  rw [coeff_truncate, coeff_C_mul, coeff_C_mul, coeff_truncate]
  split <;> simp

section Homogeneous
variable {D : ℕ}

theorem hom_lin (a : ℝ) (i : Fin D) : (C a * X i : MvPolynomial (Fin D) ℝ).IsHomogeneous 1 := by
  simpa using (isHomogeneous_C (Fin D) a).mul (isHomogeneous_X ℝ i)

theorem hom_sq (b : ℝ) (i : Fin D) : (C b * X i ^ 2 : MvPolynomial (Fin D) ℝ).IsHomogeneous 2 := by
  simpa using (isHomogeneous_C (Fin D) b).mul ((isHomogeneous_X ℝ i).pow 2)

end Homogeneous

/-- third-order truncation of the product form in two dimensions -/
theorem truncation_two (c : Fin 2 → ℝ) (hc : ∀ i, c i ^ 3 = c i) : Continuous.Spec.IsTruncation 3
    (fun u : Fin 2 → ℝ => ∏ i, (1 + 3 * c i * u i + (9 / 2 * c i ^ 2 - 3 / 2) * u i ^ 2))
    (fun u => 1 + 3 * dot c u + (9 / 2 * dot c u ^ 2 - 3 / 2 * dot u u) +
      (9 / 2 * dot c u ^ 3 - 9 / 2 * dot u u * dot c u)) := by
  let A : Fin 2 → MvPolynomial (Fin 2) ℝ := fun i => C (3 * c i) * X i
  let B : Fin 2 → MvPolynomial (Fin 2) ℝ := fun i => C (9 / 2 * c i ^ 2 - 3 / 2) * X i ^ 2
  have hA : ∀ i, (A i).IsHomogeneous 1 := fun i => hom_lin _ i
  have hB : ∀ i, (B i).IsHomogeneous 2 := fun i => hom_sq _ i
  have h0 : (1 : MvPolynomial (Fin 2) ℝ).IsHomogeneous 0 := isHomogeneous_one _ _
  have h1 : (A 0 + A 1).IsHomogeneous 1 := (hA 0).add (hA 1)
  have h2 : (B 0 + B 1 + A 0 * A 1).IsHomogeneous 2 := ((hB 0).add (hB 1)).add ((hA 0).mul (hA 1))
  have h3 : (A 0 * B 1 + A 1 * B 0).IsHomogeneous 3 := ((hA 0).mul (hB 1)).add ((hA 1).mul (hB 0))
  have h4 : (B 0 * B 1).IsHomogeneous 4 := (hB 0).mul (hB 1)
  refine isTruncation_of_eq (1 + (A 0 + A 1) + (B 0 + B 1 + A 0 * A 1) + (A 0 * B 1 + A 1 * B 0) + B 0 * B 1)
    (1 + (A 0 + A 1) + (B 0 + B 1 + A 0 * A 1) + (A 0 * B 1 + A 1 * B 0)) (fun u => ?_) (fun u => ?_) ?_
  · simp only [map_add, map_mul, map_one, map_pow, eval_X, eval_C, A, B, Fin.prod_univ_two]
    ring
  · simp only [map_add, map_mul, map_one, map_pow, eval_X, eval_C, A, B, dot, Fin.sum_univ_two]
    linear_combination (-9 / 2 * u 0 ^ 3) * hc 0 + (-9 / 2 * u 1 ^ 3) * hc 1
  · simp only [truncate_add]
    simp [truncate_homogeneous h0, truncate_homogeneous (hA _), truncate_homogeneous (hB _),
      truncate_homogeneous ((hA 0).mul (hA 1)), truncate_homogeneous ((hA 0).mul (hB 1)),
      truncate_homogeneous ((hA 1).mul (hB 0)), truncate_homogeneous h4]

/-- third-order truncation of the product form in three dimensions -/
theorem truncation_three (c : Fin 3 → ℝ) (hc : ∀ i, c i ^ 3 = c i) : Continuous.Spec.IsTruncation 3
    (fun u : Fin 3 → ℝ => ∏ i, (1 + 3 * c i * u i + (9 / 2 * c i ^ 2 - 3 / 2) * u i ^ 2))
    (fun u => 1 + 3 * dot c u + (9 / 2 * dot c u ^ 2 - 3 / 2 * dot u u) +
      (9 / 2 * dot c u ^ 3 - 9 / 2 * dot u u * dot c u)) := by
  let A : Fin 3 → MvPolynomial (Fin 3) ℝ := fun i => C (3 * c i) * X i
  let B : Fin 3 → MvPolynomial (Fin 3) ℝ := fun i => C (9 / 2 * c i ^ 2 - 3 / 2) * X i ^ 2
  have hA : ∀ i, (A i).IsHomogeneous 1 := fun i => hom_lin _ i
  have hB : ∀ i, (B i).IsHomogeneous 2 := fun i => hom_sq _ i
  have h0 : (1 : MvPolynomial (Fin 3) ℝ).IsHomogeneous 0 := isHomogeneous_one _ _
  have hAA : ∀ i j, (A i * A j).IsHomogeneous 2 := fun i j => (hA i).mul (hA j)
  have hAB : ∀ i j, (A i * B j).IsHomogeneous 3 := fun i j => (hA i).mul (hB j)
  have hAAA : (A 0 * A 1 * A 2).IsHomogeneous 3 := (hAA 0 1).mul (hA 2)
  have hBB : ∀ i j, (B i * B j).IsHomogeneous 4 := fun i j => (hB i).mul (hB j)
  have hAAB : ∀ i j k, (A i * A j * B k).IsHomogeneous 4 := fun i j k => (hAA i j).mul (hB k)
  have hABB : ∀ i j k, (A i * B j * B k).IsHomogeneous 5 := fun i j k => (hAB i j).mul (hB k)
  have hBBB : (B 0 * B 1 * B 2).IsHomogeneous 6 := (hBB 0 1).mul (hB 2)
  refine isTruncation_of_eq
    (1 + (A 0 + A 1 + A 2) + (B 0 + B 1 + B 2 + A 0 * A 1 + A 0 * A 2 + A 1 * A 2) +
      (A 0 * B 1 + A 0 * B 2 + A 1 * B 0 + A 1 * B 2 + A 2 * B 0 + A 2 * B 1 + A 0 * A 1 * A 2) +
      (B 0 * B 1 + B 0 * B 2 + B 1 * B 2 + A 0 * A 1 * B 2 + A 0 * A 2 * B 1 + A 1 * A 2 * B 0) +
      (A 0 * B 1 * B 2 + A 1 * B 0 * B 2 + A 2 * B 0 * B 1) + B 0 * B 1 * B 2)
    (1 + (A 0 + A 1 + A 2) + (B 0 + B 1 + B 2 + A 0 * A 1 + A 0 * A 2 + A 1 * A 2) +
      (A 0 * B 1 + A 0 * B 2 + A 1 * B 0 + A 1 * B 2 + A 2 * B 0 + A 2 * B 1 + A 0 * A 1 * A 2))
    (fun u => ?_) (fun u => ?_) ?_
  · simp only [map_add, map_mul, map_one, map_pow, eval_X, eval_C, A, B, Fin.prod_univ_three]
    ring
  · simp only [map_add, map_mul, map_one, map_pow, eval_X, eval_C, A, B, dot, Fin.sum_univ_three]
    linear_combination (-9 / 2 * u 0 ^ 3) * hc 0 + (-9 / 2 * u 1 ^ 3) * hc 1 + (-9 / 2 * u 2 ^ 3) * hc 2
  · simp only [truncate_add]
    simp [truncate_homogeneous h0, truncate_homogeneous (hA _), truncate_homogeneous (hB _),
      truncate_homogeneous (hAA _ _), truncate_homogeneous (hAB _ _), truncate_homogeneous hAAA,
      truncate_homogeneous (hBB _ _), truncate_homogeneous (hAAB _ _ _), truncate_homogeneous (hABB _ _ _),
      truncate_homogeneous hBBB]

/-! ### Inverse moment matrix of the full stencil -/

/-- coefficients of the quadratic polynomial with value 1 at `c` and 0 at the other two of -1, 0, 1 -/
noncomputable def lag (c : ℤ) (j : ℕ) : ℝ :=
  if c = 0 then (if j = 0 then 1 else if j = 2 then -1 else 0)
  else if j = 1 then (c : ℝ) / 2 else if j = 2 then 1 / 2 else 0

theorem lag_sum {c x : ℤ} (hc : c ∈ [-1, 0, 1]) (hx : x ∈ [-1, 0, 1]) :
    ∑ j ∈ Finset.range 3, lag c j * (x : ℝ) ^ j = if c = x then 1 else 0 := by
  simp only [List.mem_cons, List.not_mem_nil, or_false] at hc hx
  rcases hc with rfl | rfl | rfl <;> rcases hx with rfl | rfl | rfl <;>
    simp [lag, Finset.sum_range_succ] <;> norm_num

section Full
variable {D : ℕ} {st : List (List ℤ)}

/-- all velocities with components -1, 0, 1, in any order -/
structure FullStencil (D : ℕ) (st : List (List ℤ)) : Prop where
  dim : ∀ c ∈ st, c.length = D
  unit : ∀ c ∈ st, ∀ x ∈ c, x ∈ [(-1 : ℤ), 0, 1]
  nodup : st.Nodup
  count : st.length = 3 ^ D

theorem monomialAt_eq {v : List ℤ} (hv : v.length = D) {e : List ℕ} (he : e.length = D) :
    monomialAt v e = ∏ i : Fin D, ((v.getD i 0 : ℤ) : ℝ) ^ e.getD i 0 := by
  unfold monomialAt
  have : List.zipWith (fun c k => c ^ k) v e = List.ofFn fun i : Fin D => v.getD i 0 ^ e.getD i 0 := by
    refine List.ext_getElem (by simp [hv, he]) fun n h1 h2 => ?_
    have hn : n < D := by simpa using h2
    simp [List.getElem?_eq_getElem (show n < v.length by omega), List.getElem?_eq_getElem (show n < e.length by omega)]
  rw [this, List.prod_ofFn]
  push_cast
  rfl

theorem componentOrder_eq (D : ℕ) : momentsUpToComponentOrder 2 D =
    pyProduct ((List.ofFn fun _ : Fin D => 2).map fun i => List.range (i + 1)) := by
  unfold momentsUpToComponentOrder
  rw [List.ofFn_const, List.map_replicate]

theorem length_componentOrder (D : ℕ) : (momentsUpToComponentOrder 2 D).length = 3 ^ D := by
  unfold momentsUpToComponentOrder
  induction D with
  | zero => rfl
  | succ n ih =>
    rw [List.replicate_succ, pyProduct, List.length_flatMap]
    simp only [List.length_map, ih]
    simp [List.range_succ]
    ring

theorem sum_get {α M : Type} [AddCommMonoid M] (l : List α) (a : α) {n : ℕ} (h : l.length = n) (F : α → M) :
    ∑ k : Fin n, F (l.getD k a) = (l.map F).sum := by
  subst h
  rw [← List.sum_ofFn]
  congr 1
  refine List.ext_getElem (by simp) fun i h1 h2 => ?_
  have hi : i < l.length := by simpa using h1
  simp [List.getElem?_eq_getElem hi]

theorem left_inverse (h : FullStencil D st) :
    (Matrix.of fun q k : Fin st.length => ∏ i : Fin D, lag ((st.get q).getD i 0)
      (((momentsUpToComponentOrder 2 D).getD k []).getD i 0)) * momentMatrix st (momentsUpToComponentOrder 2 D) = 1 := by
  have hlen : (momentsUpToComponentOrder 2 D).length = st.length := by rw [length_componentOrder, h.count]
  ext q q'
  rw [Matrix.mul_apply]
  simp only [Matrix.of_apply, momentMatrix]
  rw [sum_get (momentsUpToComponentOrder 2 D) [] hlen fun e =>
    (∏ i : Fin D, lag ((st.get q).getD i 0) (e.getD i 0)) * monomialAt (st.get q') e]
  have hd : ∀ q : Fin st.length, (st.get q).length = D := fun q => h.dim _ (List.get_mem _ _)
  have hu : ∀ (q : Fin st.length) (i : Fin D), (st.get q).getD i 0 ∈ [(-1 : ℤ), 0, 1] := by
    intro q i
    have hi : i.val < (st.get q).length := by rw [hd]; exact i.isLt
    rw [List.getD_eq_getElem _ _ hi]
    exact h.unit _ (List.get_mem _ _) _ (List.getElem_mem _)
  rw [componentOrder_eq]
  rw [List.map_congr_left (g := fun e : List ℕ => ∏ i : Fin D, (lag ((st.get q).getD i 0) (e.getD i 0) *
    (((st.get q').getD i 0 : ℤ) : ℝ) ^ e.getD i 0)) ?_, sum_pyProduct (fun _ : Fin D => 2) fun i j =>
      lag ((st.get q).getD i 0) j * (((st.get q').getD i 0 : ℤ) : ℝ) ^ j]
  · simp only [lag_sum (hu q _) (hu q' _)]
    rw [Finset.prod_ite_zero, Finset.prod_const_one]
    by_cases hqq : q = q'
    · subst hqq; simp
    · rw [Matrix.one_apply_ne hqq, if_neg]
      intro hall
      refine hqq (Fin.ext ?_)
      have : st.get q = st.get q' := by
        refine List.ext_getElem (by rw [hd, hd]) fun n h1 h2 => ?_
        have hn : n < D := by rw [← hd q]; exact h1
        have := hall ⟨n, hn⟩ (Finset.mem_univ _)
        rwa [List.getD_eq_getElem _ _ h1, List.getD_eq_getElem _ _ h2] at this
      exact (List.nodup_iff_injective_get.1 h.nodup this ▸ rfl)
  · intro e he
    have hel : e.length = D := (HydroMaxwellian.contained_mem he).1
    rw [monomialAt_eq (hd q') hel, Finset.prod_mul_distrib]

end Full

/-! ### The properties -/

/-- Populations are returned exactly if there are as many constraints as velocities and these determine the populations;
they are then the only populations with the prescribed moments. -/
theorem C50_matching (st : List (List ℤ)) (constraints : List (List ℕ × ℝ)) :
    (∀ f, fromMatchingMoments st constraints = .ok f → ∀ g : Fin st.length → ℝ,
      (∀ k : Fin st.length, ∑ q, monomialAt (st.get q) ((constraints.map Prod.fst).getD k []) * g q =
        (constraints.map Prod.snd).getD k 0) ↔ g = f) ∧
    ((∃ f, fromMatchingMoments st constraints = .ok f) ↔ constraints.length = st.length ∧
      ∀ g : Fin st.length → ℝ, (∀ k : Fin st.length,
        ∑ q, monomialAt (st.get q) ((constraints.map Prod.fst).getD k []) * g q = 0) → g = 0) := by
  set M := momentMatrix st (constraints.map Prod.fst) with hM
  have hrow : ∀ (g : Fin st.length → ℝ) (k : Fin st.length),
      ∑ q, monomialAt (st.get q) ((constraints.map Prod.fst).getD k []) * g q = M.mulVec g k := fun g k => rfl
  constructor
  · intro f hf g
    unfold fromMatchingMoments at hf
    split at hf
    · simp at hf
    · unfold MomentMethod.pyInv at hf
      by_cases hdet : M.det = 0
      · rw [if_pos hdet] at hf; simp at hf
      · rw [if_neg hdet] at hf
        simp only [Except.ok.injEq] at hf
        have hunit : IsUnit M.det := Ne.isUnit hdet
        simp only [hrow]
        constructor
        · intro h
          rw [← hf, ← _root_.funext h, ← hM, Matrix.mulVec_mulVec, Matrix.nonsing_inv_mul _ hunit, Matrix.one_mulVec]
        · rintro rfl k
          rw [← hf, ← hM, Matrix.mulVec_mulVec, Matrix.mul_nonsing_inv _ hunit, Matrix.one_mulVec]
  · simp only [hrow]
    have hinj : (∀ g : Fin st.length → ℝ, (∀ k, M.mulVec g k = 0) → g = 0) ↔ M.det ≠ 0 := by
      constructor
      · intro h hdet
        obtain ⟨v, hv, hv0⟩ := Matrix.exists_mulVec_eq_zero_iff.2 hdet
        exact hv (h v fun k => by rw [hv0]; rfl)
      · intro hdet g hg
        by_contra hne
        exact hdet (Matrix.exists_mulVec_eq_zero_iff.1 ⟨g, hne, _root_.funext hg⟩)
    rw [hinj]
    unfold fromMatchingMoments MomentMethod.pyInv
    by_cases hl : constraints.length = st.length
    · by_cases hdet : M.det = 0
      · simp [hl, ← hM, hdet]
      · simp [hl, ← hM, hdet]
    · simp [hl]

/-- Matching the Maxwellian on the full stencil is always possible and gives the product of one-dimensional equilibria. -/
theorem C50_product_form {D : ℕ} {st : List (List ℤ)} (h : FullStencil D st) (rho : ℝ) (u : Fin D → ℝ) {c : ℝ}
    (hc : 0 < c) : matchingMaxwellian D st (momentsUpToComponentOrder 2 D) rho u c = .ok fun q =>
      rho * ∏ i : Fin D, if (st.get q).getD i 0 = 0 then 1 - c - u i ^ 2
        else (((st.get q).getD i 0 : ℤ) * u i + u i ^ 2 + c) / 2 := by
  have hlen : (momentsUpToComponentOrder 2 D).length = st.length := by rw [length_componentOrder, h.count]
  have hl := left_inverse h
  set M := momentMatrix st (momentsUpToComponentOrder 2 D) with hM
  have hdet : M.det ≠ 0 := by
    intro h0
    have := congrArg Matrix.det hl
    rw [Matrix.det_mul, h0] at this
    simp at this
  unfold matchingMaxwellian
  rw [if_neg (by rw [hlen]; simp)]
  simp only [← hM]
  rw [if_neg hdet, Matrix.inv_eq_left_inv hl]
  congr 1
  funext q
  simp only [Matrix.mulVec, dotProduct, Matrix.of_apply, (C49_moment rho u hc _).2, maxwellMoment]
  rw [sum_get (momentsUpToComponentOrder 2 D) [] hlen fun e =>
    (∏ i : Fin D, lag ((st.get q).getD i 0) (e.getD i 0)) * (rho * ∏ i : Fin D, gaussMoment (u i) c (e.getD i 0)),
    componentOrder_eq, List.map_congr_left (g := fun e : List ℕ => rho * ∏ i : Fin D,
      (lag ((st.get q).getD i 0) (e.getD i 0) * gaussMoment (u i) c (e.getD i 0))) fun e _ => by
        rw [Finset.prod_mul_distrib]; ring,
    List.sum_map_mul_left, sum_pyProduct (fun _ : Fin D => 2) fun i j => lag ((st.get q).getD i 0) j * gaussMoment (u i) c j]
  congr 1
  refine Finset.prod_congr rfl fun i _ => ?_
  have hqi : (st.get q).getD i 0 = 0 ∨ (st.get q).getD i 0 ≠ 0 := em _
  rcases hqi with h0 | h0
  · simp [lag, h0, Finset.sum_range_succ, gaussMoment]
    ring
  · simp only [lag, if_neg h0, Finset.sum_range_succ, gaussMoment, Finset.sum_range_zero]
    simp
    ring

theorem table_full : ∀ e ∈ Tables.predefined, e.2.2.length = 9 ∨ e.2.2.length = 27 →
    ((e.2.2.headD []).length = 2 ∨ (e.2.2.headD []).length = 3) ∧
    (∀ c ∈ e.2.2, c.length = (e.2.2.headD []).length) ∧ (∀ c ∈ e.2.2, ∀ x ∈ c, x ∈ [(-1 : ℤ), 0, 1]) ∧ e.2.2.Nodup ∧
    e.2.2.length = 3 ^ (e.2.2.headD []).length ∧
    (getWeights e.2.2 = some (e.2.2.map fun c => (c.map fun x : ℤ => if x = 0 then (2 / 3 : ℚ) else 1 / 6).prod)) := by
  decide +kernel

theorem truncation_cases {D : ℕ} (hD : D = 2 ∨ D = 3) (c : Fin D → ℝ) (hc : ∀ i, c i ^ 3 = c i) :
    Continuous.Spec.IsTruncation 3
    (fun u : Fin D → ℝ => ∏ i, (1 + 3 * c i * u i + (9 / 2 * c i ^ 2 - 3 / 2) * u i ^ 2))
    (fun u => 1 + 3 * dot c u + (9 / 2 * dot c u ^ 2 - 3 / 2 * dot u u) +
      (9 / 2 * dot c u ^ 3 - 9 / 2 * dot u u * dot c u)) := by
  rcases hD with rfl | rfl
  · exact truncation_two c hc
  · exact truncation_three c hc

/-- On D2Q9 and D3Q27 in every ordering, the terms up to third order in the velocity of the populations that match the
continuous Maxwellian are the discrete Maxwellian of third order. -/
theorem C50_full_stencils : ∀ e ∈ Tables.predefined, e.2.2.length = 9 ∨ e.2.2.length = 27 → ∀ rho : ℝ,
    ∃ f g : (Fin (e.2.2.headD []).length → ℝ) → Fin e.2.2.length → ℝ,
      (∀ u, matchingMaxwellian (e.2.2.headD []).length e.2.2
        (momentsUpToComponentOrder 2 (e.2.2.headD []).length) rho u (1 / 3) = .ok (f u)) ∧
      (∀ u, ∃ l, discreteMaxwellian e.2.2 (List.ofFn u) rho 3 (1 / 3) true = some l ∧ l.length = e.2.2.length ∧
        ∀ q : Fin e.2.2.length, l.getD q 0 = g u q) ∧
      ∀ q, Continuous.Spec.IsTruncation 3 (fun u => f u q) (fun u => g u q) := by
  intro e he hlen rho
  obtain ⟨hD, hdim, hunit, hnd, hcount, hw⟩ := table_full e he hlen
  have hfull : FullStencil (e.2.2.headD []).length e.2.2 := ⟨hdim, hunit, hnd, hcount⟩
  have hwl : ∀ ws, getWeights e.2.2 = some ws → ws.length = e.2.2.length := by
    intro ws h
    rw [hw] at h
    rw [← Option.some.inj h, List.length_map]
  refine ⟨_, fun u => eqPoly (vel e.2.2 (e.2.2.headD []).length) (weightVec e.2.2 _) (1 / 3) (rhoOut true rho)
    (rhoIn true rho) (g2 3) (g3 3) u, fun u => C50_product_form hfull rho u (by norm_num), fun u =>
      discreteMaxwellian_getD e.2.2 hdim u rho 3 true _ (hwl _ hw) hw, fun q => ?_⟩
  generalize hst : e.2.2 = st at *
  have hqm : st.get q ∈ st := List.get_mem _ _
  have hql : (st.get q).length = (st.headD []).length := hdim _ hqm
  have hin : ∀ i : Fin (st.headD []).length, (st.get q).getD i 0 ∈ [(-1 : ℤ), 0, 1] := by
    intro i
    have hi : i.val < (st.get q).length := by rw [hql]; exact i.isLt
    rw [List.getD_eq_getElem _ _ hi]
    exact hunit _ hqm _ (List.getElem_mem _)
  have hcube : ∀ i : Fin (st.headD []).length, (vel st (st.headD []).length q i : ℝ) ^ 3 = vel st _ q i := by
    intro i
    have := hin i
    simp only [List.mem_cons, List.not_mem_nil, or_false] at this
    unfold vel
    rcases this with h | h | h <;> rw [h] <;> norm_num
  have hweight : (weightVec st (st.map fun c => (c.map fun x : ℤ => if x = 0 then (2 / 3 : ℚ) else 1 / 6).prod) q : ℝ) =
      ∏ i : Fin (st.headD []).length, if (st.get q).getD i 0 = 0 then (2 / 3 : ℝ) else 1 / 6 := by
    unfold weightVec
    have hq : q.val < (st.map fun c => (c.map fun x : ℤ => if x = 0 then (2 / 3 : ℚ) else 1 / 6).prod).length := by
      rw [List.length_map]; exact q.isLt
    rw [List.getD_eq_getElem _ _ hq, List.getElem_map]
    have hmap : (st[q.val].map fun x : ℤ => if x = 0 then (2 / 3 : ℚ) else 1 / 6) =
        List.ofFn fun i : Fin (st.headD []).length => if (st.get q).getD i 0 = 0 then (2 / 3 : ℚ) else 1 / 6 := by
      refine List.ext_getElem (by simp only [List.length_map, List.length_ofFn]; exact hql) fun n h1 h2 => ?_
      have hn : n < (st.get q).length := by simpa using h1
      rw [List.getElem_map, List.getElem_ofFn, List.getD_eq_getElem _ _ hn]
      rfl
    rw [hmap, List.prod_ofFn]
    push_cast
    refine Finset.prod_congr rfl fun i _ => ?_
    split <;> norm_num
  have hT := IsTruncation.const_mul (truncation_cases hD (vel st _ q) hcube)
    (rho * ∏ i : Fin (st.headD []).length, if (st.get q).getD i 0 = 0 then (2 / 3 : ℝ) else 1 / 6)
  convert hT using 2
  · rename_i u
    rw [mul_assoc, ← Finset.prod_mul_distrib]
    congr 1
    refine Finset.prod_congr rfl fun i _ => ?_
    have := hin i
    simp only [List.mem_cons, List.not_mem_nil, or_false] at this
    have hv : (vel st (st.headD []).length q i : ℝ) = ((st.get q).getD i 0 : ℤ) := rfl
    rcases this with h | h | h <;> rw [hv, h] <;> norm_num <;> ring
  · rename_i u
    unfold eqPoly
    beta_reduce
    rw [hweight]
    generalize (∏ i : Fin (st.headD []).length, if (st.get q).getD i 0 = 0 then (2 / 3 : ℝ) else 1 / 6) = P
    generalize dot (vel st (st.headD []).length q) u = a
    generalize dot u u = b
    norm_num [rhoOut, rhoIn, g2, g3, -mul_eq_mul_left_iff, -mul_eq_mul_right_iff]
    ring

/-! ### Third moments of the second-order equilibrium -/

section Third
variable {D : ℕ}

/-- product of one-dimensional Gaussian moments, for a list of directions -/
def gaussWord (u : Fin D → ℝ) (v : ℝ) (l : List (Fin D)) : ℝ := ∏ i, gaussMoment (u i) v (l.count i)

theorem gaussMoment_succ (u v : ℝ) (n : ℕ) :
    gaussMoment u v (n + 1) = u * gaussMoment u v n + n * v * gaussMoment u v (n - 1) := by
  cases n with
  | zero => simp [gaussMoment]
  | succ n => simp [gaussMoment]

theorem gaussWord_cons (u : Fin D → ℝ) (v : ℝ) (a : Fin D) (l : List (Fin D)) :
    gaussWord u v (a :: l) = u a * gaussWord u v l + l.count a * v * gaussWord u v (l.erase a) := by
  have split : ∀ m : List (Fin D), gaussWord u v m =
      gaussMoment (u a) v (m.count a) * ∏ i ∈ Finset.univ.erase a, gaussMoment (u i) v (m.count i) := fun m =>
    (Finset.mul_prod_erase _ _ (Finset.mem_univ a)).symm
  have h1 : ∏ i ∈ Finset.univ.erase a, gaussMoment (u i) v ((a :: l).count i) =
      ∏ i ∈ Finset.univ.erase a, gaussMoment (u i) v (l.count i) :=
    Finset.prod_congr rfl fun i hi => by
      rw [List.count_cons_of_ne (Ne.symm (Finset.ne_of_mem_erase hi))]
  have h2 : ∏ i ∈ Finset.univ.erase a, gaussMoment (u i) v ((l.erase a).count i) =
      ∏ i ∈ Finset.univ.erase a, gaussMoment (u i) v (l.count i) :=
    Finset.prod_congr rfl fun i hi => by
      rw [List.count_erase_of_ne (Finset.ne_of_mem_erase hi)]
  rw [split (a :: l), split l, split (l.erase a), h1, h2, List.count_cons_self, List.count_erase_self, gaussMoment_succ]
  ring

theorem gaussWord_nil (u : Fin D → ℝ) (v : ℝ) : gaussWord u v [] = 1 := by simp [gaussWord, gaussMoment]

theorem gaussWord_one (u : Fin D → ℝ) (v : ℝ) (a : Fin D) : gaussWord u v [a] = u a := by
  rw [gaussWord_cons, gaussWord_nil]; simp

theorem gaussWord_two (u : Fin D → ℝ) (v : ℝ) (a b : Fin D) : gaussWord u v [a, b] = u a * u b + v * δ a b := by
  rw [gaussWord_cons, gaussWord_one]
  by_cases h : a = b
  · subst h; simp [δ, gaussWord_nil]
  · have h' : b ≠ a := Ne.symm h
    simp [δ, h, h']

theorem gaussWord_three (u : Fin D → ℝ) (v : ℝ) (a b d : Fin D) : gaussWord u v [a, b, d] =
    u a * u b * u d + v * (u a * δ b d + u b * δ a d + u d * δ a b) := by
  rw [gaussWord_cons, gaussWord_two]
  by_cases hb : a = b
  · subst hb
    by_cases hd : a = d
    · subst hd; simp [δ, gaussWord_one]; ring
    · have hd' : d ≠ a := Ne.symm hd
      simp [δ, gaussWord_one, hd, hd']; ring
  · have hb' : b ≠ a := Ne.symm hb
    by_cases hd : a = d
    · subst hd; simp [δ, gaussWord_one, hb, hb']; ring
    · have hd' : d ≠ a := Ne.symm hd
      simp only [δ, if_neg hb, if_neg hd, List.count_cons_of_ne hb', List.count_cons_of_ne hd', List.count_nil]
      push_cast
      ring

theorem eqPoly_m3 {K : Type} [Field K] [CharZero K] {Q : ℕ} {c : Fin Q → Fin D → K} {w : Fin Q → K} {cs : K}
    (h : Isotropic5 c w cs) (hcs : cs ≠ 0) (ro ri G : K) (u : Fin D → K) (a b d : Fin D) : ∑ q, c q a * c q b * c q d * eqPoly c w cs ro ri G 0 u q =
      ro * cs * (u a * δ b d + u b * δ a d + u d * δ a b) := by
  have e : ∀ q, c q a * c q b * c q d * eqPoly c w cs ro ri G 0 u q =
      (ro * ri - ro * G * (1 / 2 / cs * dot u u)) * (w q * c q a * c q b * c q d) +
      (ro / cs) * (w q * dot (c q) (fun e => δ a e) * dot (c q) (fun e => δ b e) * dot (c q) (fun e => δ d e) *
        dot (c q) u) +
      (ro * G * (1 / 2 / cs ^ 2)) * (w q * dot (c q) (fun e => δ a e) * dot (c q) (fun e => δ b e) *
        dot (c q) (fun e => δ d e) * dot (c q) u * dot (c q) u) :=
    fun q => by rw [← comp_eq_dot, ← comp_eq_dot, ← comp_eq_dot]; unfold eqPoly; ring
  simp only [e, Finset.sum_add_distrib, ← Finset.mul_sum, h.m3, h.c4, h.c5, dot_δ]
  have hs : ∀ x y : Fin D, (δ y x : K) = δ x y := fun x y => by unfold δ; simp only [eq_comm]
  rw [hs a b, hs a d, hs b d]
  field_simp
  ring

theorem word_pow (x : Fin D → ℝ) (l : List (Fin D)) : (l.map x).prod = ∏ i, x i ^ l.count i := by
  rw [Finset.prod_list_map_count]
  exact Finset.prod_subset (Finset.subset_univ _) fun i _ hi => by
    rw [List.mem_toFinset] at hi
    rw [List.count_eq_zero_of_not_mem hi, pow_zero]

/-- For every stencil with weights except D3Q7 and every monomial of degree at most three, the moments of the second-order
discrete Maxwellian are those of the continuous one without terms of third order in the velocity. -/
theorem C50_third_order : ∀ e ∈ Tables.predefined, e.2.2.length ≠ 7 → (getWeights e.2.2).isSome → ∀ rho : ℝ,
    ∃ g : (Fin (e.2.2.headD []).length → ℝ) → Fin e.2.2.length → ℝ,
      (∀ u, ∃ l, discreteMaxwellian e.2.2 (List.ofFn u) rho 2 (1 / 3) true = some l ∧ l.length = e.2.2.length ∧
        ∀ q : Fin e.2.2.length, l.getD q 0 = g u q) ∧
      ∀ m : Fin (e.2.2.headD []).length → ℕ, ∑ i, m i ≤ 3 → Continuous.Spec.IsTruncation 2
        (fun u => Continuous.Spec.momentAbout (maxwellian rho u (1 / 3)) 0 m)
        (fun u => ∑ q, (∏ i, vel e.2.2 (e.2.2.headD []).length q i ^ m i) * g u q) := by
  intro e he h7 hsome rho
  obtain ⟨ws, hws⟩ := Option.isSome_iff_exists.1 hsome
  obtain ⟨hl, h3, h5⟩ := C20_weights_isotropic (K := ℝ) e he ws hws
  replace h5 := h5 h7
  have hdim := predefined_rectangular e he
  refine ⟨fun u => eqPoly (vel e.2.2 (e.2.2.headD []).length) (weightVec e.2.2 ws) (1 / 3) (rhoOut true rho)
    (rhoIn true rho) (g2 2) (g3 2) u, fun u => discreteMaxwellian_getD e.2.2 hdim u rho 2 true ws hl hws, ?_⟩
  generalize (e.2.2.headD []).length = D at *
  have hcs : (1 / 3 : ℝ) ≠ 0 := by norm_num
  -- every exponent tuple is the count of a word of directions
  have words : ∀ l : List (Fin D), l.length ≤ 3 → Continuous.Spec.IsTruncation 2
      (fun u => rho * gaussWord u (1 / 3) l)
      (fun u => ∑ q, (l.map (vel e.2.2 D q)).prod * eqPoly (vel e.2.2 D) (weightVec e.2.2 ws) (1 / 3) (rhoOut true rho)
        (rhoIn true rho) (g2 2) (g3 2) u q) := by
    intro l hll
    match l, hll with
    | [], _ =>
      refine isTruncation_of_eq (C rho) (C rho) (fun u => by rw [gaussWord_nil]; simp) (fun u => ?_)
        (by rw [truncate_homogeneous (isHomogeneous_C _ rho)]; simp)
      have := eqPoly_m0 h3 hcs (rhoOut true rho) (rhoIn true rho) (g2 2) (g3 2) u
      simpa [rhoOut, rhoIn, eq_comm] using this
    | [a], _ =>
      refine isTruncation_of_eq (C rho * X a) (C rho * X a) (fun u => by rw [gaussWord_one]; simp) (fun u => ?_)
        (by rw [truncate_homogeneous (hom_lin rho a)]; simp)
      have := eqPoly_m1 h3 hcs (rhoOut true rho) (rhoIn true rho) (g2 2) (g3 2) u a (.inr h5)
      simpa [rhoOut, rhoIn, eq_comm, -mul_eq_mul_left_iff] using this
    | [a, b], _ =>
      have h2 : (C rho * (X a * X b) : MvPolynomial (Fin D) ℝ).IsHomogeneous 2 := by
        simpa using (isHomogeneous_C (Fin D) rho).mul ((isHomogeneous_X ℝ a).mul (isHomogeneous_X ℝ b))
      refine isTruncation_of_eq (C rho * (X a * X b) + C (rho * (1 / 3 * δ a b)))
        (C rho * (X a * X b) + C (rho * (1 / 3 * δ a b))) (fun u => ?_) (fun u => ?_)
        (by rw [truncate_add, truncate_homogeneous h2, truncate_homogeneous (isHomogeneous_C _ _)]; simp)
      · rw [gaussWord_two]
        simp only [map_add, map_mul, eval_C, eval_X]
        ring
      · have := eqPoly_m2 h3 hcs (rhoOut true rho) (rhoIn true rho) (g2 2) (g3 2) u a b (.inr h5)
        simp only [List.map_cons, List.map_nil, List.prod_cons, List.prod_nil, mul_one]
        rw [this]
        simp only [map_add, map_mul, eval_C, eval_X, rhoOut, rhoIn, g2]
        norm_num [-mul_eq_mul_left_iff]
        ring
    | [a, b, d], _ =>
      have h3' : (C rho * (X a * X b * X d) : MvPolynomial (Fin D) ℝ).IsHomogeneous 3 := by
        simpa using (isHomogeneous_C (Fin D) rho).mul (((isHomogeneous_X ℝ a).mul (isHomogeneous_X ℝ b)).mul
          (isHomogeneous_X ℝ d))
      refine isTruncation_of_eq
        (C rho * (X a * X b * X d) + (C (rho * (1 / 3 * δ b d)) * X a + C (rho * (1 / 3 * δ a d)) * X b +
          C (rho * (1 / 3 * δ a b)) * X d))
        (C (rho * (1 / 3 * δ b d)) * X a + C (rho * (1 / 3 * δ a d)) * X b + C (rho * (1 / 3 * δ a b)) * X d)
        (fun u => ?_) (fun u => ?_)
        (by
          rw [truncate_add, truncate_homogeneous h3', truncate_homogeneous (((hom_lin _ a).add (hom_lin _ b)).add (hom_lin _ d))]
          simp)
      · rw [gaussWord_three]
        simp only [map_add, map_mul, eval_C, eval_X]
        ring
      · have := eqPoly_m3 h5 hcs (rhoOut true rho) (rhoIn true rho) (g2 2) u a b d
        have hg : (g3 2 : ℝ) = 0 := by simp [g3]
        simp only [List.map_cons, List.map_nil, List.prod_cons, List.prod_nil, mul_one, ← mul_assoc, hg]
        rw [this]
        simp only [map_add, map_mul, eval_C, eval_X, rhoOut]
        norm_num [-mul_eq_mul_left_iff]
        ring
    | _ :: _ :: _ :: _ :: _, hll => simp at hll; omega
  intro m hm
  obtain ⟨l, hlen, hcount⟩ : ∃ l : List (Fin D), l.length = ∑ i, m i ∧ ∀ i, l.count i = m i := by
    refine ⟨(List.finRange D).flatMap fun i => List.replicate (m i) i, ?_, fun i => ?_⟩
    · rw [List.length_flatMap]
      simp only [List.length_replicate]
      rw [← List.ofFn_eq_map, List.sum_ofFn]
    · rw [List.count_flatMap, show (List.count i ∘ fun j => List.replicate (m j) j) =
        fun j : Fin D => if j = i then m j else 0 from _root_.funext fun j => by
          simp [Function.comp, List.count_replicate], ← List.ofFn_eq_map, List.sum_ofFn]
      simp
  have hw := words l (by rw [hlen]; exact hm)
  simp only [word_pow, gaussWord, hcount] at hw
  convert hw using 2
  rename_i u
  rw [← (C49_moment rho u (by norm_num : (0 : ℝ) < 1 / 3) m).1, (C49_moment rho u (by norm_num : (0 : ℝ) < 1 / 3) m).2]
  rfl

end Third

/-- C50 for two one-dimensional populations with prescribed zeroth and first moment: populations are found -/
example : ∃ f, fromMatchingMoments [[1], [-1]] [([0], 3), ([1], 1)] = .ok f := by
  refine (C50_matching _ _).2.2 ⟨rfl, fun g hg => ?_⟩
  have h0 := hg 0
  have h1 := hg 1
  simp [monomialAt, Fin.sum_univ_two] at h0 h1
  funext q
  have hq : q = (0 : Fin 2) ∨ q = (1 : Fin 2) := by
    match q with
    | ⟨0, _⟩ => exact .inl rfl
    | ⟨1, _⟩ => exact .inr rfl
  rcases hq with rfl | rfl
  · show g 0 = 0; linarith
  · show g 1 = 0; linarith

/-- C50 on D3Q19, which has no product form: a third moment -/
example (rho : ℝ) : ∃ g : (Fin 3 → ℝ) → Fin 19 → ℝ, Continuous.Spec.IsTruncation 2
    (fun u => Continuous.Spec.momentAbout (maxwellian rho u (1 / 3)) 0 ![2, 1, 0])
    (fun u => ∑ q, (∏ i, vel Tables.D3Q19_walberla 3 q i ^ (![2, 1, 0] : Fin 3 → ℕ) i) * g u q) := by
  obtain ⟨g, -, h⟩ := C50_third_order ("D3Q19", "walberla", Tables.D3Q19_walberla) (by decide +kernel) (by decide +kernel)
    (by decide +kernel) rho
  exact ⟨g, h ![2, 1, 0] (by decide)⟩

end Matching
end Lbm
