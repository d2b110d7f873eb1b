import Verif.Props.ChapmanEnskog
import Verif.Props.SteadyState

/-!
# Property C68, C69, continued: what happens if no viscosity is found, and the recombined populations
-/

namespace Lbm
namespace ChapmanEnskog

section
variable {K : Type} [Field K] {D : ℕ}
open MvPolynomial Spec

theorem onlyElement_error {α : Type} (s : Finset α) (h : s.card ≠ 1) : onlyElement s = .error .valueError := by
  unfold onlyElement
  rw [dif_neg]
  rintro ⟨x, rfl⟩
  exact h (Finset.card_singleton x)

/-- C68. In one dimension there is no shear; the functions fail. -/
theorem C68_no_shear (comp : Bool) (s : Fin 1 → Fin 1 → MvPolynomial (Sym 1) K) :
    dynamicViscosity s = .error .valueError ∧ kinematicViscosity comp s = .error .valueError := by
  have h : dynamicViscosity s = .error .valueError := by
    classical
    refine onlyElement_error _ ?_
    have : shearCandidates s = ∅ := by
      unfold shearCandidates
      rw [Finset.image_eq_empty, Finset.filter_eq_empty_iff]
      rintro ⟨i, j⟩ -
      simp [Subsingleton.elim i j]
    rw [this]
    simp
  exact ⟨h, by unfold kinematicViscosity; rw [h]; rfl⟩

/-- C68. Different shear viscosities for two pairs of axes: no viscosity is returned. -/
theorem C68_two_viscosities (s : Fin D → Fin D → MvPolynomial (Sym D) K) (μ ν : MvPolynomial (Sym D) K) (hne : μ ≠ ν)
    (i j k l : Fin D) (hij : i < j) (hkl : k < l) (h1 : s i j = -μ * (X (.du i j) + X (.du j i)))
    (h2 : s k l = -ν * (X (.du k l) + X (.du l k))) : dynamicViscosity s = .error .valueError := by
  classical
  refine onlyElement_error _ fun hc => ?_
  obtain ⟨x, hx⟩ := Finset.card_eq_one.1 hc
  have key : ∀ (i j : Fin D) (μ : MvPolynomial (Sym D) K), i < j → s i j = -μ * (X (.du i j) + X (.du j i)) →
      toRatio μ ∈ shearCandidates s := by
    intro i j μ hij h
    unfold shearCandidates
    rw [Finset.mem_image]
    refine ⟨(i, j), by simp [hij], ?_⟩
    have hz := toRatio_ne (du_sum_ne (K := K) i j (ne_of_lt hij))
    simp only
    rw [h, ← neg_div, div_eq_iff hz]
    unfold toRatio
    rw [← map_neg, ← map_mul]
    congr 1
    ring
  have hi := key i j μ hij h1
  have hk := key k l ν hkl h2
  rw [hx, Finset.mem_singleton] at hi hk
  apply hne
  exact IsFractionRing.injective (MvPolynomial (Sym D) K) (Ratio K D) (hi.trans hk.symm)

/-- Without derivatives of the velocity. -/
def Spec.DiffFree (p : MvPolynomial (Sym D) K) : Prop := ∀ i j, Sym.du i j ∉ p.vars

theorem setZero_free (p : MvPolynomial (Sym D) K) (h : Spec.DiffFree p) (i j : Fin D) : setZero p (.du i j) = p := by
  unfold setZero
  have : aeval (fun t => if t = Sym.du i j then (0 : MvPolynomial (Sym D) K) else X t) p =
      aeval (X : Sym D → MvPolynomial (Sym D) K) p := by
    refine eval₂Hom_congr' rfl (fun t ht _ => ?_) rfl
    rw [if_neg]
    rintro rfl
    exact h i j ht
  rw [this, aeval_X_left_apply]

theorem setZero_add (p q : MvPolynomial (Sym D) K) (t : Sym D) : setZero (p + q) t = setZero p t + setZero q t := by
  simp [setZero]

theorem foldl_setZero_add (l : List (Fin D × Fin D)) (p q : MvPolynomial (Sym D) K) :
    l.foldl (fun p ij => setZero p (.du ij.1 ij.2)) (p + q) =
      l.foldl (fun p ij => setZero p (.du ij.1 ij.2)) p + l.foldl (fun p ij => setZero p (.du ij.1 ij.2)) q := by
  induction l generalizing p q with
  | nil => rfl
  | cons a l ih => rw [List.foldl_cons, List.foldl_cons, List.foldl_cons, setZero_add, ih]

theorem foldl_setZero_free (l : List (Fin D × Fin D)) (p : MvPolynomial (Sym D) K) (h : Spec.DiffFree p) :
    l.foldl (fun p ij => setZero p (.du ij.1 ij.2)) p = p := by
  induction l with
  | nil => rfl
  | cons a l ih => rw [List.foldl_cons, setZero_free p h, ih]

/-- A Newtonian stress with a further contribution on the diagonal. -/
noncomputable def Spec.withPressure (comp : Bool) (μ l : K) (r : Fin D → MvPolynomial (Sym D) K) (i j : Fin D) :
    MvPolynomial (Sym D) K := newtonianStress comp μ l i j + if i = j then r i else 0

theorem bulkCandidates_withPressure (comp : Bool) (μ l : K) (r : Fin (D + 1) → MvPolynomial (Sym (D + 1)) K)
    (hfree : ∀ i, Spec.DiffFree (r i)) (i : Fin (D + 1)) (hr : r i ≠ 0) :
    bulkCandidates (Spec.withPressure comp μ l r) (C μ * rhoFactor comp) = ∅ := by
  unfold bulkCandidates
  rw [if_neg]
  intro hz
  have h := hz i
  have hb : bulkTerm (Spec.withPressure comp μ l r) (C μ * rhoFactor comp) i =
      linForm comp (fun kl => if kl.1 = kl.2 then l else 0) + r i := by
    have := bulkTerm_newtonian (D := D + 1) comp μ l i
    rw [← this]
    unfold bulkTerm Spec.withPressure
    rw [if_pos rfl]
    ring
  rw [hb, foldl_setZero_add, foldl_setZero_free _ _ (hfree i), foldl_setZero] at h
  have h2 := congrArg (fun p => (Finset.univ : Finset (Fin (D + 1) × Fin (D + 1))).toList.foldl
    (fun p ij => setZero p (.du ij.1 ij.2)) p) h
  rw [foldl_setZero_add, foldl_setZero_free _ _ (hfree i), foldl_setZero] at h2
  have h3 : linForm comp (fun ij => if ij ∈ (Finset.univ : Finset (Fin (D + 1) × Fin (D + 1))).toList then (0 : K)
      else if ij ∈ (diffAtoms (linForm comp (fun kl => if kl.1 = kl.2 then l else 0) + r i)).toList then 0
        else if ij.1 = ij.2 then l else 0) = 0 := by
    rw [linForm_zero_iff]
    funext ij
    simp
  rw [h3, zero_add, foldl_setZero_free (K := K) _ 0 (by intro i j; simp)] at h2
  exact hr h2

/-- C68, disagreement: a contribution on the diagonal that has no derivative of the velocity is a reason for
`get_bulk_viscosity` to fail, but `does_approximate_navier_stokes` reports no condition for it: the empty set of candidates is
taken as no condition. -/
theorem C68_conditions_miss_diagonal (comp : Bool) (μ l : K) (r : Fin (D + 2) → MvPolynomial (Sym (D + 2)) K)
    (hfree : ∀ i, Spec.DiffFree (r i)) (i : Fin (D + 2)) (hr : r i ≠ 0) :
    bulkViscosity (Spec.withPressure comp μ l r) (C μ * rhoFactor comp) = .error .valueError ∧
    nsConditions (Spec.withPressure comp μ l r) = {0} := by
  have hb := bulkCandidates_withPressure (D := D + 1) comp μ l r hfree i hr
  constructor
  · unfold bulkViscosity
    rw [hb, onlyElement_error _ (by simp)]
    rfl
  have hoff : ∀ i j : Fin (D + 2), i < j → Spec.withPressure comp μ l r i j = newtonianStress comp μ l i j := by
    intro i j hij
    unfold Spec.withPressure
    rw [if_neg (ne_of_lt hij), add_zero]
  have hn := C68_newtonian_conditions (K := K) (D := D) comp μ l
  have href : coeffOf (newtonianStress (D := D + 2) comp μ l 0 1) (.du 0 1) = -(C μ * rhoFactor comp) := by
    rw [newtonian_linForm]
    have := coeffOf_linForm comp (newtonian (D := D + 2) μ l 0 1) (0, 1)
    simp only at this
    rw [this]
    have h01 : newtonian (D := D + 2) μ l 0 1 (0, 1) = -μ := by
      unfold newtonian
      simp
    rw [h01, map_neg]
    ring
  refine Set.Subset.antisymm ?_ (by
    unfold nsConditions
    intro e he
    exact .inl (.inl (.inl (.inl he))))
  rw [← hn]
  unfold nsConditions
  have h01 : (0 : Fin (D + 2)) < 1 := by simp [Fin.lt_def]
  simp only [hoff 0 1 h01, href, neg_neg, hb]
  rintro e ((((he | ⟨i, j, hij, rfl⟩) | ⟨i, j, k, hij, rfl⟩) | ⟨i, j, hij, rfl⟩) | ⟨b, hbm, rfl⟩)
  · exact .inl (.inl (.inl (.inl he)))
  · exact .inl (.inl (.inl (.inr ⟨i, j, hij, by rw [hoff i j hij]⟩)))
  · exact .inl (.inl (.inr ⟨i, j, k, hij, by rw [hoff i j hij]⟩))
  · exact .inl (.inr ⟨i, j, hij, by rw [hoff i j hij]⟩)
  · simp at hbm

example : nsConditions (Spec.withPressure (D := 2) true (1 / 3 : ℚ) 0 fun i => X (.u i)) = {0} :=
  (C68_conditions_miss_diagonal (D := 0) true (1 / 3) 0 (fun i => X (.u i)) (by intro i k l; simp [vars_X]) 0
    (X_ne_zero _)).2

/-- C68. Products of two velocities or derivatives of velocities are error terms, and those with a gradient of the density. -/
theorem C68_error_terms (k : Fin 6 → K) (a b c d : Fin D) :
    removeErrorTerms [(k 0, [.rho, .du a b]), (k 1, [.u a]), (k 2, [.du a b, .du c d]), (k 3, [.u a, .du c d]),
      (k 4, [.u a, .u b]), (k 5, [.rho, .drho a])] = [(k 0, [.rho, .du a b]), (k 1, [.u a])] := by
  simp [removeErrorTerms, removeHigherOrderU, Expanded.args, Sym.isU, Sym.isDrho, List.countP_cons]

end

end ChapmanEnskog

namespace SteadyState
variable {K V : Type} [Field K] [AddCommGroup V] [Module K V]

/-- C69. The recombined populations are the series of the populations behind the equilibrium, without a factor `eps`. -/
theorem C69_recombined (order : ℕ) (eps : K) (f : ℕ → V) :
    f 0 + eps • recombined order eps f = ∑ i ∈ Finset.range (order + 1), eps ^ i • f i := by
  rw [Finset.sum_range_succ', pow_zero, one_smul, add_comm]
  congr 1
  unfold recombined
  rw [Finset.smul_sum]
  refine Finset.sum_congr rfl fun i _ => ?_
  rw [Nat.add_sub_cancel, smul_smul, ← pow_succ']

/-- C69. Up to the order of the analysis all summands of the equation are used in the hierarchy. -/
theorem C69_hierarchy_sum (order n : ℕ) (hn : n + 1 ≤ order) (T inv : V →ₗ[K] V) (F f0 : V) :
    hierarchy order T inv F f0 (n + 1) = -inv ((∑ k ∈ Finset.range (n + 1), (1 / ((k + 1).factorial : K)) •
      (T ^ (k + 1)) (hierarchy order T inv F f0 (n - k))) - if n = 0 then F else 0) := by
  rw [hierarchy_succ order T inv F f0 n hn]

example : recombined 2 (2 : ℚ) (fun i => (i : ℚ) + 1) = 8 := by
  norm_num [recombined, Finset.sum_range_succ]

end SteadyState
end Lbm
