/-
C67: the n-phase model of Boyer and Minjeaud.
-/
import Verif.Boyer
import Verif.Props.PhaseField
import Mathlib.LinearAlgebra.Matrix.SchurComplement
import Mathlib.Analysis.Calculus.Deriv.Abs
import Mathlib.Analysis.SpecialFunctions.Integrals.Basic

set_option linter.unusedSectionVars false

namespace Lbm
namespace Boyer

open Matrix

/-! ### Diffusion coefficients -/

section diffusion
variable {K : Type} [Field K] {n : ℕ}

/-- The system that determines the diffusion coefficients: symmetric, rows adding up to zero, inverse of the surface
tensions up to a multiple of the constant vector in every row. -/
structure IsDiffusion (sigma alpha : Matrix (Fin n) (Fin n) K) (gamma : Fin n → K) : Prop where
  symm : ∀ i j, alpha i j = alpha j i
  rows : ∀ i, ∑ j, alpha i j = 0
  inverse : ∀ i j, ∑ k, alpha i k * sigma k j = (if i = j then 1 else 0) + gamma i

/-- Surface tensions with a border of ones: the matrix of the minimisation of the interfacial energy under the
constraint that the concentrations add up to a constant. -/
def bordered (sigma : Matrix (Fin n) (Fin n) K) : Matrix (Fin n ⊕ Unit) (Fin n ⊕ Unit) K :=
  fun x y => match x, y with
    | .inl i, .inl j => sigma i j
    | .inl _, .inr _ => 1
    | .inr _, .inl _ => 1
    | .inr _, .inr _ => 0

theorem bordered₁₁ (sigma : Matrix (Fin n) (Fin n) K) (i j : Fin n) : bordered sigma (.inl i) (.inl j) = sigma i j := rfl
theorem bordered₁₂ (sigma : Matrix (Fin n) (Fin n) K) (i : Fin n) (u : Unit) : bordered sigma (.inl i) (.inr u) = 1 := rfl
theorem bordered₂₁ (sigma : Matrix (Fin n) (Fin n) K) (i : Fin n) (u : Unit) : bordered sigma (.inr u) (.inl i) = 1 := rfl
theorem bordered₂₂ (sigma : Matrix (Fin n) (Fin n) K) (u v : Unit) : bordered sigma (.inr u) (.inr v) = 0 := rfl

theorem alphaMatrix_symm (a : Fin n → Fin n → K) (i j : Fin n) : alphaMatrix a i j = alphaMatrix a j i := by
  unfold alphaMatrix
  by_cases h : i = j
  · subst h; rfl
  · rw [if_neg h, if_neg (Ne.symm h)]
    rcases lt_or_gt_of_ne h with h' | h'
    · rw [if_pos h', if_neg (not_lt.2 h'.le)]
    · rw [if_neg (not_lt.2 h'.le), if_pos h']

theorem alphaMatrix_rows (a : Fin n → Fin n → K) (i : Fin n) : ∑ j, alphaMatrix a i j = 0 := by
  have h : ∀ j, alphaMatrix a i j = (if i = j then -∑ k, (if i ≠ k then (if i < k then a i k else a k i) else 0) else 0) +
      if i ≠ j then (if i < j then a i j else a j i) else 0 := by
    intro j
    unfold alphaMatrix
    by_cases h : i = j <;> simp [h]
  simp only [h, Finset.sum_add_distrib, Finset.sum_ite_eq, Finset.mem_univ, if_true]
  ring

theorem alphaMatrix_self (alpha : Matrix (Fin n) (Fin n) K) (hs : ∀ i j, alpha i j = alpha j i)
    (hr : ∀ i, ∑ j, alpha i j = 0) : alphaMatrix alpha = alpha := by
  have hoff : ∀ i j, i ≠ j → alphaMatrix alpha i j = alpha i j := by
    intro i j h
    unfold alphaMatrix
    rw [if_neg h]
    split_ifs
    · rfl
    · exact hs j i
  funext i j
  by_cases h : i = j
  · subst h
    have h1 := alphaMatrix_rows alpha i
    have h2 := hr i
    rw [← Finset.add_sum_erase _ _ (Finset.mem_univ i)] at h1 h2
    have h3 : ∑ j ∈ Finset.univ.erase i, alphaMatrix alpha i j = ∑ j ∈ Finset.univ.erase i, alpha i j :=
      Finset.sum_congr rfl fun j hj => hoff i j (Finset.ne_of_mem_erase hj).symm
    rw [h3] at h1
    linear_combination h1 - h2
  · exact hoff i j h

theorem lemma21_iff (sigma : Matrix (Fin n) (Fin n) K) (a : Fin n → Fin n → K) (gamma : Fin n → K) :
    lemma21 sigma a gamma = 0 ↔ IsDiffusion sigma (alphaMatrix a) gamma := by
  constructor
  · intro h
    refine ⟨alphaMatrix_symm a, alphaMatrix_rows a, fun i j => ?_⟩
    have := congrFun (congrFun h i) j
    simp only [lemma21, Matrix.sub_apply, mul_apply, one_apply, vecMulVec_apply, mul_one, Matrix.zero_apply] at this
    linear_combination this
  · intro h
    ext i j
    have := h.inverse i j
    simp only [lemma21, Matrix.sub_apply, mul_apply, one_apply, vecMulVec_apply, mul_one, Matrix.zero_apply]
    linear_combination this

theorem bordered_injective {sigma alpha : Matrix (Fin n) (Fin n) K} {gamma : Fin n → K}
    (h : IsDiffusion sigma alpha gamma) (hn : n ≠ 0) : (bordered sigma).det ≠ 0 := by
  intro h0
  obtain ⟨v, hv, hv0⟩ := exists_mulVec_eq_zero_iff.2 h0
  apply hv
  have e1 : ∀ k, ∑ j, sigma k j * v (.inl j) + v (.inr ()) = 0 := fun k => by
    have := congrFun hv0 (.inl k)
    simpa [bordered₁₁, bordered₁₂, bordered₂₁, bordered₂₂, mulVec, dotProduct, Fintype.sum_sum_type] using this
  have e2 : ∑ j, v (.inl j) = 0 := by
    have := congrFun hv0 (.inr ())
    simpa [bordered₁₁, bordered₁₂, bordered₂₁, bordered₂₂, mulVec, dotProduct, Fintype.sum_sum_type] using this
  have e3 : ∀ i, v (.inl i) = 0 := by
    intro i
    have h1 : ∑ k, alpha i k * (∑ j, sigma k j * v (.inl j) + v (.inr ())) = 0 :=
      Finset.sum_eq_zero fun k _ => by rw [e1, mul_zero]
    simp only [mul_add, Finset.sum_add_distrib, ← Finset.sum_mul, h.rows, zero_mul, add_zero, Finset.mul_sum] at h1
    rw [Finset.sum_comm] at h1
    have h2 : ∀ j, ∑ k, alpha i k * (sigma k j * v (.inl j)) = ((if i = j then 1 else 0) + gamma i) * v (.inl j) := by
      intro j
      rw [← h.inverse i j, Finset.sum_mul]
      exact Finset.sum_congr rfl fun k _ => by ring
    simp only [h2, add_mul, Finset.sum_add_distrib, ← Finset.mul_sum, e2, mul_zero, add_zero, ite_mul, one_mul, zero_mul,
      Finset.sum_ite_eq, Finset.mem_univ, if_true] at h1
    exact h1
  funext x
  match x with
  | .inl i => exact e3 i
  | .inr () =>
    have := e1 ⟨0, Nat.pos_of_ne_zero hn⟩
    simpa [e3] using this

/-- **C67.** Diffusion coefficients are determined by their equations: no two solutions exist. -/
theorem C67_diffusion_unique {sigma alpha alpha' : Matrix (Fin n) (Fin n) K} {gamma gamma' : Fin n → K} (hn : n ≠ 0)
    (h : IsDiffusion sigma alpha gamma) (h' : IsDiffusion sigma alpha' gamma') : alpha = alpha' ∧ gamma = gamma' := by
  have hd := bordered_injective h hn
  have hu : IsUnit (bordered sigma).det := isUnit_iff_ne_zero.2 hd
  have hz : ∀ i, (fun x : Fin n ⊕ Unit => match x with
      | .inl j => alpha i j - alpha' i j
      | .inr () => -(gamma i - gamma' i)) = 0 := by
    intro i
    set r : Fin n ⊕ Unit → K := fun x => match x with
      | .inl j => alpha i j - alpha' i j
      | .inr () => -(gamma i - gamma' i) with hr
    have hrb : r ᵥ* bordered sigma = 0 := by
      funext x
      match x with
      | .inl j =>
        have e1 := h.inverse i j
        have e2 := h'.inverse i j
        simp only [vecMul, dotProduct, Fintype.sum_sum_type, bordered₁₁, bordered₂₁,
          Finset.univ_unique, Finset.sum_singleton, Pi.zero_apply, hr, sub_mul, Finset.sum_sub_distrib, e1, e2]
        ring
      | .inr () =>
        have e1 := h.rows i
        have e2 := h'.rows i
        simp only [vecMul, dotProduct, Fintype.sum_sum_type, bordered₁₂, bordered₂₂,
          Finset.univ_unique, Finset.sum_singleton, Pi.zero_apply, hr, mul_one, Finset.sum_sub_distrib, e1, e2,
          mul_zero, sub_self, add_zero]
    calc r = r ᵥ* (bordered sigma * (bordered sigma)⁻¹) := by rw [mul_nonsing_inv _ hu, vecMul_one]
      _ = 0 := by rw [← vecMul_vecMul, hrb, zero_vecMul]
  constructor
  · funext i j
    exact sub_eq_zero.1 (congrFun (hz i) (.inl j))
  · funext i
    exact sub_eq_zero.1 (neg_eq_zero.1 (congrFun (hz i) (.inr ())))

/-- **C67.** What is returned are the diffusion coefficients. -/
theorem C67_diffusion (sigma alpha : Matrix (Fin n) (Fin n) K) (gamma : Fin n → K)
    (h : diffusionCoefficients sigma = .ok (alpha, gamma)) : IsDiffusion sigma alpha gamma := by
  unfold diffusionCoefficients at h
  split_ifs at h with h1 h2 h3
  · obtain ⟨e1, e2⟩ := Prod.mk.inj (Except.ok.inj h)
    rw [← e1, ← e2]
    exact (lemma21_iff _ _ _).1 h3.choose_spec

/-- **C67.** For symmetric surface tensions they are returned exactly if the diagonal is zero and the constrained
minimisation is regular; otherwise an assertion fails. -/
theorem C67_diffusion_defined (sigma : Matrix (Fin n) (Fin n) K) (hs : ∀ i j, sigma i j = sigma j i) :
    ((∃ r, diffusionCoefficients sigma = .ok r) ↔ n ≠ 0 ∧ (∀ k, sigma k k = 0) ∧ (bordered sigma).det ≠ 0) ∧
    ∀ e, diffusionCoefficients sigma = .error e → e = .assertion := by
  constructor
  · constructor
    · rintro ⟨⟨alpha, gamma⟩, h⟩
      have hd := C67_diffusion sigma alpha gamma h
      have hn : n ≠ 0 := by
        rintro rfl
        simp [diffusionCoefficients] at h
      refine ⟨hn, fun k => ?_, bordered_injective hd hn⟩
      by_contra hk
      rw [diffusionCoefficients, if_pos ⟨k, hk⟩] at h
      cases h
    · rintro ⟨hn, h0, hd⟩
      have hu : IsUnit (bordered sigma).det := isUnit_iff_ne_zero.2 hd
      have hbs : (bordered sigma)ᵀ = bordered sigma := by
        ext x y
        rcases x with i | i <;> rcases y with j | j <;>
          simp only [transpose_apply, bordered₁₁, bordered₁₂, bordered₂₁, bordered₂₂]
        exact hs _ _
      have hinv : ((bordered sigma)⁻¹)ᵀ = (bordered sigma)⁻¹ := by rw [transpose_nonsing_inv, hbs]
      have hmul := nonsing_inv_mul _ hu
      set X := (bordered sigma)⁻¹ with hX
      have hsol : IsDiffusion sigma (fun i j => X (.inl i) (.inl j)) (fun i => -X (.inl i) (.inr ())) := by
        refine ⟨fun i j => ?_, fun i => ?_, fun i j => ?_⟩
        · exact (congrFun (congrFun hinv (.inl i)) (.inl j)).symm
        · have := congrFun (congrFun hmul (.inl i)) (.inr ())
          simpa [mul_apply, Fintype.sum_sum_type, bordered₁₂, bordered₂₂] using this
        · have := congrFun (congrFun hmul (.inl i)) (.inl j)
          simp only [mul_apply, Fintype.sum_sum_type, bordered₁₁, bordered₂₁,
            Finset.univ_unique, Finset.sum_singleton, mul_one, one_apply, Sum.inl.injEq] at this
          linear_combination this
      have hex : ∃ s : (Fin n → Fin n → K) × (Fin n → K), lemma21 sigma s.1 s.2 = 0 := by
        refine ⟨⟨fun i j => X (.inl i) (.inl j), fun i => -X (.inl i) (.inr ())⟩, (lemma21_iff _ _ _).2 ?_⟩
        rw [alphaMatrix_self _ hsol.symm hsol.rows]
        exact hsol
      unfold diffusionCoefficients
      rw [if_neg (by simp [h0]), if_neg hn, dif_pos hex]
      exact ⟨_, rfl⟩
  · intro e h
    unfold diffusionCoefficients at h
    split_ifs at h <;> exact (Except.error.inj h).symm

/-- **C67.** The vector belonging to them adds up to minus one. -/
theorem C67_gamma_sum {sigma alpha : Matrix (Fin n) (Fin n) K} {gamma : Fin n → K} (hn : n ≠ 0)
    (h : IsDiffusion sigma alpha gamma) : ∑ i, gamma i = -1 := by
  have h1 : ∑ i, ∑ k, alpha i k * sigma k ⟨0, Nat.pos_of_ne_zero hn⟩ = 0 := by
    rw [Finset.sum_comm]
    refine Finset.sum_eq_zero fun k _ => ?_
    rw [← Finset.sum_mul]
    simp only [h.symm _ k, h.rows, zero_mul]
  simp only [h.inverse, Finset.sum_add_distrib, Finset.sum_ite_eq', Finset.mem_univ, if_true] at h1
  linear_combination h1

/-- **C67.** Diffusion does not change the sum of the concentrations, for any free energy. -/
theorem C67_sum_preserved {sigma alpha : Matrix (Fin n) (Fin n) K} {gamma : Fin n → K}
    (h : IsDiffusion sigma alpha gamma) (dF : Fin n → K) : ∑ i, lBar alpha dF i = 0 := by
  unfold lBar
  rw [Finset.sum_neg_distrib, Finset.sum_comm, neg_eq_zero]
  refine Finset.sum_eq_zero fun k _ => ?_
  rw [← Finset.sum_mul]
  simp only [h.symm _ k, h.rows, zero_mul]

/-- **C67.** The interfacial parts are decoupled: in the equation of a phase only its own Laplacian is left, with the
same factor for all phases. -/
theorem C67_decoupled {sigma alpha : Matrix (Fin n) (Fin n) K} {gamma : Fin n → K} (h : IsDiffusion sigma alpha gamma)
    (hs : ∀ i j, sigma i j = sigma j i) (h0 : ∀ i, sigma i i = 0) (a epsilon : K) (lap : Fin n → K)
    (hl : ∑ i, lap i = 0) (i : Fin n) :
    ∑ j, alpha i j * muInterfacial sigma a epsilon lap j = epsilon * a / 2 * lap i := by
  have hm : ∀ j, muInterfacial sigma a epsilon lap j = epsilon * a / 2 * ∑ k, sigma j k * lap k := by
    intro j
    unfold muInterfacial
    rw [← Finset.sum_add_distrib]
    congr 1
    refine Finset.sum_congr rfl fun k _ => ?_
    rcases lt_trichotomy k j with hk | hk | hk
    · rw [if_pos hk, if_neg (not_lt.2 hk.le), add_zero]
    · subst hk; simp [h0]
    · rw [if_neg (not_lt.2 hk.le), if_pos hk, zero_add, hs]
  have e : ∑ j, alpha i j * ∑ k, sigma j k * lap k = lap i := by
    simp only [Finset.mul_sum]
    rw [Finset.sum_comm]
    have h2 : ∀ k, ∑ j, alpha i j * (sigma j k * lap k) = ((if i = k then 1 else 0) + gamma i) * lap k := by
      intro k
      rw [← h.inverse i k, Finset.sum_mul]
      exact Finset.sum_congr rfl fun _ _ => by ring
    simp only [h2, add_mul, Finset.sum_add_distrib, ← Finset.mul_sum, hl, mul_zero, add_zero, ite_mul, one_mul, zero_mul,
      Finset.sum_ite_eq, Finset.mem_univ, if_true]
  simp only [hm]
  rw [← e, Finset.mul_sum]
  exact Finset.sum_congr rfl fun j _ => by ring

end diffusion

/-! ### Sums over subsets -/

section subsets
variable {K : Type} [CommRing K]

/-- iterated differences: `Δ_{a₁} ⋯ Δ_{aₖ} f` at `x` -/
def difference (f : K → K) : List K → K → K
  | [], x => f x
  | a :: l, x => difference f l (x + a) - difference f l x

theorem combinations_gt {α : Type} : ∀ (l : List α) (k : ℕ), l.length < k → combinations k l = []
  | [], 0, h => by simp at h
  | [], k + 1, _ => rfl
  | a :: l, 0, h => by simp at h
  | a :: l, k + 1, h => by
    have h' : l.length < k := by simpa using h
    rw [combinations, combinations_gt l k h', combinations_gt l (k + 1) (by omega)]
    rfl

theorem combinations_map {α β : Type} (g : α → β) : ∀ (k : ℕ) (l : List α),
    combinations k (l.map g) = (combinations k l).map (List.map g)
  | 0, _ => by simp [combinations]
  | k + 1, [] => by simp [combinations]
  | k + 1, a :: l => by
    rw [List.map_cons, combinations, combinations_map g k l, combinations_map g (k + 1) l, combinations, List.map_append,
      List.map_map, List.map_map]
    rfl

theorem combinations_sublist {α : Type} : ∀ (k : ℕ) (l i : List α), i ∈ combinations k l → i.Sublist l ∧ i.length = k
  | 0, l, i, h => by
    obtain rfl : i = [] := by simpa [combinations] using h
    exact ⟨List.nil_sublist _, rfl⟩
  | k + 1, [], i, h => by simp [combinations] at h
  | k + 1, a :: l, i, h => by
    rw [combinations, List.mem_append, List.mem_map] at h
    rcases h with ⟨j, hj, rfl⟩ | h
    · obtain ⟨h1, h2⟩ := combinations_sublist k l j hj
      exact ⟨h1.cons_cons a, by simp [h2]⟩
    · obtain ⟨h1, h2⟩ := combinations_sublist (k + 1) l i h
      exact ⟨h1.cons a, h2⟩

theorem sum_map_neg' {α : Type} (g : α → K) (l : List α) : (l.map fun x => -g x).sum = -(l.map g).sum := by
  induction l with
  | nil => simp
  | cons a l ih => simp only [List.map_cons, List.sum_cons, ih]; ring

theorem sum_map_sub' {α : Type} (g h : α → K) (l : List α) :
    (l.map fun x => g x - h x).sum = (l.map g).sum - (l.map h).sum := by
  induction l with
  | nil => simp
  | cons a l ih => simp only [List.map_cons, List.sum_cons, ih]; ring

/-- sum over all subsequences -/
def subsetSum (l : List K) (g : List K → K) : K :=
  ((List.range (l.length + 1)).map fun k => ((combinations k l).map g).sum).sum

theorem subsetSum_nil (g : List K → K) : subsetSum [] g = g [] := by
  simp [subsetSum, combinations]

theorem subsetSum_cons (a : K) (l : List K) (g : List K → K) :
    subsetSum (a :: l) g = subsetSum l (fun i => g (a :: i)) + subsetSum l g := by
  have e : ∀ (m : ℕ) (h : ℕ → K), ((List.range (m + 1)).map h).sum = h 0 + ((List.range m).map fun k => h (k + 1)).sum := by
    intro m h
    rw [List.range_succ_eq_map, List.map_cons, List.sum_cons, List.map_map]
    rfl
  have e2 : subsetSum l g = ((List.range (l.length + 2)).map fun k => ((combinations k l).map g).sum).sum := by
    rw [subsetSum, List.range_succ (n := l.length + 1), List.map_append, List.sum_append]
    simp [combinations_gt l (l.length + 1) (by omega)]
  rw [e2, subsetSum, subsetSum, List.length_cons, e, e (l.length + 1)]
  have h0 : ∀ l' : List K, ((combinations 0 l').map g).sum = g [] := fun l' => by simp [combinations]
  have h1 : ∀ k, ((combinations (k + 1) (a :: l)).map g).sum = ((combinations k l).map fun i => g (a :: i)).sum +
      ((combinations (k + 1) l).map g).sum := fun k => by
    rw [combinations, List.map_append, List.sum_append, List.map_map]
    rfl
  rw [h0, h0]
  simp only [h1]
  rw [show (fun k => ((combinations k l).map fun i => g (a :: i)).sum + ((combinations (k + 1) l).map g).sum) =
    fun k => (fun k => ((combinations k l).map fun i => g (a :: i)).sum) k +
      (fun k => ((combinations (k + 1) l).map g).sum) k from rfl, List.sum_map_add]
  ring

theorem subsetSum_difference (f : K → K) : ∀ (l : List K) (x : K),
    subsetSum l (fun j => (-1) ^ (l.length + j.length) * f (x + j.sum)) = difference f l x
  | [], x => by simp [subsetSum_nil, difference]
  | a :: l, x => by
    rw [subsetSum_cons, difference, ← subsetSum_difference f l, ← subsetSum_difference f l, sub_eq_add_neg]
    congr 1
    · congr 1
      funext j
      simp only [List.length_cons, List.sum_cons]
      rw [show l.length + 1 + (j.length + 1) = l.length + j.length + 2 by ring, pow_add, ← add_assoc]
      norm_num
    · unfold subsetSum
      rw [← sum_map_neg']
      congr 1
      refine List.map_congr_left fun k _ => ?_
      rw [← sum_map_neg']
      congr 1
      refine List.map_congr_left fun j _ => ?_
      rw [List.length_cons, show l.length + 1 + j.length = l.length + j.length + 1 by ring, pow_succ]
      ring

theorem subsetSum_all (f : K → K) : ∀ (l : List K) (x : K), subsetSum l (fun i => difference f i x) = f (x + l.sum)
  | [], x => by simp [subsetSum_nil, difference]
  | a :: l, x => by
    rw [subsetSum_cons]
    simp only [difference]
    have : subsetSum l (fun i => difference f i (x + a) - difference f i x) =
        subsetSum l (fun i => difference f i (x + a)) - subsetSum l (fun i => difference f i x) := by
      unfold subsetSum
      rw [← sum_map_sub']
      congr 1
      refine List.map_congr_left fun k _ => ?_
      rw [← sum_map_sub']
    rw [this, subsetSum_all f l, List.sum_cons, add_assoc]
    ring

theorem map_range_getD (c : List K) : (List.range c.length).map (fun i => c.getD i 0) = c := by
  refine List.ext_getElem (by simp) fun i h1 h2 => ?_
  simp [List.getElem?_eq_getElem h2]

/-- **C67.** `psi` adds up, over all sets of `k` phases, the differences of `f` in the directions of their
concentrations (without the value at the origin). -/
theorem C67_psi (k : ℕ) (c : List K) (f : K → K) (hk : k ≤ c.length) :
    psi k c f = .ok (((combinations k c).map fun i => difference f i 0 - (-1) ^ k * f 0).sum) := by
  rw [psi, if_pos hk, psiSum]
  congr 1
  conv_rhs => rw [← map_range_getD c, combinations_map, List.map_map]
  congr 1
  refine List.map_congr_left fun i hi => ?_
  obtain ⟨-, hlen⟩ := combinations_sublist _ _ _ hi
  rw [Function.comp_apply, ← subsetSum_difference, subsetSum, List.length_map, hlen, List.range_succ_eq_map, List.map_cons,
    List.sum_cons, List.map_map]
  simp only [combinations, List.map_cons, List.map_nil, List.sum_cons, List.sum_nil, List.length_nil, add_zero]
  rw [add_sub_cancel_left]
  congr 1
  refine List.map_congr_left fun s hs => ?_
  have hs' : s + 1 ≤ k := by
    have := List.mem_range.1 hs
    omega
  rw [Function.comp_apply, combinations_map, List.map_map]
  congr 1
  refine List.map_congr_left fun j hj => ?_
  obtain ⟨-, hjl⟩ := combinations_sublist _ _ _ hj
  rw [Function.comp_apply, List.length_map, hjl, zero_add, sumAt]
  congr 1
  obtain ⟨d, rfl⟩ := Nat.exists_eq_add_of_le hs'
  rw [show s + 1 + d - (s + 1) = d by omega, show s + 1 + d + s.succ = d + 2 * (s + 1) by omega, pow_add, pow_mul]
  norm_num

theorem C67_psi_refused (k : ℕ) (c : List K) (f : K → K) (hk : c.length < k) : psi k c f = .error .assertion := by
  rw [psi, if_neg (not_le.2 hk)]

theorem difference_zero (f : K → K) : ∀ (l : List K), 0 ∈ l → ∀ x, difference f l x = 0
  | a :: l, h, x => by
    rcases List.mem_cons.1 h with rfl | h
    · simp [difference]
    · simp [difference, difference_zero f l h]

open Classical in
/-- **C67.** It vanishes where fewer than `k` phases are present. -/
theorem C67_psi_absent (k : ℕ) (c : List K) (f : K → K) (hf : f 0 = 0) (hk : k ≤ c.length)
    (hc : (c.filter fun x => x ≠ 0).length < k) : psi k c f = .ok 0 := by
  rw [C67_psi k c f hk]
  congr 1
  refine List.sum_eq_zero fun y hy => ?_
  obtain ⟨i, hi, rfl⟩ := List.mem_map.1 hy
  obtain ⟨hsub, hlen⟩ := combinations_sublist _ _ _ hi
  rw [hf, mul_zero, sub_zero]
  refine difference_zero f i ?_ 0
  by_contra h0
  have h1 : (i.filter fun x => x ≠ 0) = i := by
    rw [List.filter_eq_self]
    intro x hx
    simp only [ne_eq, decide_eq_true_eq]
    rintro rfl
    exact h0 hx
  have h2 := (hsub.filter fun x => decide (x ≠ 0)).length_le
  rw [h1] at h2
  omega

/-- **C67.** The sums for all numbers of phases together are the function of the sum of all concentrations. -/
theorem C67_psi_total (c : List K) (f : K → K) (hf : f 0 = 0) :
    ((List.range c.length).map fun k => psiSum (k + 1) c f).sum = f c.sum := by
  have h : ∀ k < c.length, psiSum (k + 1) c f = ((combinations (k + 1) c).map fun i => difference f i 0).sum := by
    intro k hk
    have := C67_psi (k + 1) c f hk
    rw [psi, if_pos (by omega)] at this
    simpa [hf] using Except.ok.inj this
  rw [← zero_add c.sum, ← subsetSum_all f c 0, subsetSum, List.range_succ_eq_map, List.map_cons, List.sum_cons,
    List.map_map]
  simp only [combinations, List.map_cons, List.map_nil, List.sum_cons, List.sum_nil, add_zero, difference, hf, zero_add]
  congr 1
  exact List.map_congr_left fun k hk => h k (List.mem_range.1 hk)

end subsets

section equal
variable {K : Type} [Field K]

theorem mapM_ok {α β : Type} (F : α → Except PyErr β) (G : α → β) : ∀ l : List α, (∀ x ∈ l, F x = .ok (G x)) →
    l.mapM F = .ok (l.map G)
  | [], _ => rfl
  | a :: l, h => by
    rw [List.mapM_cons, h a (by simp), mapM_ok F G l fun x hx => h x (by simp [hx])]
    rfl

theorem capitalFEqual_eq (c : List K) (f : K → K) (sigma lambda1 : K) :
    capitalFEqual c f sigma lambda1 =
      .ok ((List.range c.length).map fun k => lambdaEqual k sigma lambda1 * psiSum (k + 1) c f).sum := by
  unfold capitalFEqual
  rw [mapM_ok _ (fun k => lambdaEqual k sigma lambda1 * psiSum (k + 1) c f)]
  · rfl
  · intro k hk
    rw [psi, if_pos (by simpa using hk)]
    rfl

/-- partial sums of the harmonic series -/
def harmonicSum (K : Type) [Field K] (k : ℕ) : K := ((List.range k).map fun s => (1 : K) / ((s + 1 : ℕ) : K)).sum

theorem capitalFEqual_harmonic (c : List K) (f : K → K) (sigma lambda1 : K) (h0 : f 0 = 0) (h1 : f c.sum = 0) :
    capitalFEqual c f sigma lambda1 =
      .ok (-(sigma / 2) * ((List.range c.length).map fun k => harmonicSum K k * psiSum (k + 1) c f).sum) := by
  rw [capitalFEqual_eq]
  congr 1
  have e : ∀ k, lambdaEqual k sigma lambda1 * psiSum (k + 1) c f =
      lambda1 * psiSum (k + 1) c f - sigma / 2 * (harmonicSum K k * psiSum (k + 1) c f) := fun k => by
    unfold lambdaEqual harmonicSum
    ring
  simp only [e]
  rw [sum_map_sub', List.sum_map_mul_left, List.sum_map_mul_left, C67_psi_total c f h0, h1]
  ring

/-- **C67.** For compositions that add up to one the bulk energy of equal surface tensions does not depend on the free
parameter, for every function that vanishes at 0 and 1. -/
theorem C67_equal_independent (c : List K) (f : K → K) (sigma lambda1 lambda1' : K) (hc : c.sum = 1) (h0 : f 0 = 0)
    (h1 : f 1 = 0) : capitalFEqual c f sigma lambda1 = capitalFEqual c f sigma lambda1' := by
  rw [capitalFEqual_harmonic c f sigma lambda1 h0 (by rw [hc, h1]),
    capitalFEqual_harmonic c f sigma lambda1' h0 (by rw [hc, h1])]

theorem combinations_one {α : Type} : ∀ l : List α, combinations 1 l = l.map fun x => [x]
  | [] => rfl
  | a :: l => by
    rw [combinations, combinations_one l]
    simp [combinations]

theorem psiSum_one (c : List K) (f : K → K) (h0 : f 0 = 0) (hc : c ≠ []) : psiSum 1 c f = (c.map f).sum := by
  have hl : 1 ≤ c.length := List.length_pos_of_ne_nil hc
  have := C67_psi 1 c f hl
  rw [psi, if_pos hl] at this
  rw [Except.ok.inj this, combinations_one, List.map_map]
  congr 1
  refine List.map_congr_left fun x _ => ?_
  simp [difference, h0]

open Classical in
theorem capitalFEqual_two (c : List K) (f : K → K) (sigma lambda1 : K) (hc : c.sum = 1) (h0 : f 0 = 0) (h1 : f 1 = 0)
    (h2 : (c.filter fun x => x ≠ 0).length ≤ 2) :
    capitalFEqual c f sigma lambda1 = .ok (sigma / 2 * (c.map f).sum) := by
  have hne : c ≠ [] := by
    rintro rfl
    simp at hc
  rw [capitalFEqual_harmonic c f sigma lambda1 h0 (by rw [hc, h1])]
  congr 1
  have htot := C67_psi_total c f h0
  rw [hc, h1] at htot
  have hz : ∀ k, 2 ≤ k → k < c.length → psiSum (k + 1) c f = 0 := by
    intro k hk hkl
    have := C67_psi_absent (k + 1) c f h0 hkl (by omega)
    rw [psi, if_pos (by omega)] at this
    exact Except.ok.inj this
  have hp1 := psiSum_one c f h0 hne
  match hl : c.length with
  | 0 => exact absurd (List.length_eq_zero_iff.1 hl) hne
  | 1 =>
    rw [hl] at htot
    have : psiSum 1 c f = 0 := by simpa using htot
    rw [← hp1, this]
    simp [harmonicSum]
  | m + 2 =>
    rw [hl] at htot
    have e : ∀ h : ℕ → K, (∀ k, 2 ≤ k → k < m + 2 → h k = 0) →
        ((List.range (m + 2)).map h).sum = h 0 + h 1 := by
      intro h hh
      rw [List.range_succ_eq_map, List.map_cons, List.sum_cons, List.map_map, List.range_succ_eq_map, List.map_cons,
        List.sum_cons, List.map_map]
      rw [List.sum_eq_zero, add_zero]
      · rfl
      · intro y hy
        obtain ⟨k, hk, rfl⟩ := List.mem_map.1 hy
        have := List.mem_range.1 hk
        exact hh (k + 2) (by omega) (by omega)
    rw [e _ fun k hk hk' => hz k hk (by omega)] at htot
    rw [e _ fun k hk hk' => by rw [hz k hk (by omega), mul_zero], ← hp1]
    simp [harmonicSum]
    linear_combination (-(sigma / 2)) * htot

/-- **C67.** Where only two phases are present, the bulk energy of equal surface tensions is that of two phases: surface
tension times double well, for every symmetric function that vanishes at 0 and 1 and every number of phases. -/
theorem C67_equal_pair (c : List K) (m : ℕ) (x : K) (hc : c.Perm (x :: (1 - x) :: List.replicate m 0)) (f : K → K)
    (sigma lambda1 : K) (h0 : f 0 = 0) (h1 : f 1 = 0) (hf : f (1 - x) = f x) (h2 : (2 : K) ≠ 0) :
    capitalFEqual c f sigma lambda1 = .ok (sigma * f x) := by
  classical
  have hsum : c.sum = 1 := by
    rw [hc.sum_eq]
    simp
  have hfil : (c.filter fun x => x ≠ 0).length ≤ 2 := by
    rw [(hc.filter _).length_eq]
    have hr : ∀ m, ((List.replicate m (0 : K)).filter fun x => x ≠ 0) = [] := fun m => by simp
    by_cases h3 : x = 0 <;> by_cases h4 : 1 - x = 0 <;> simp [List.filter_cons, h3, h4]
  rw [capitalFEqual_two c f sigma lambda1 hsum h0 h1 hfil]
  congr 1
  rw [(hc.map f).sum_eq]
  simp only [List.map_cons, List.map_replicate, h0, List.sum_cons, List.sum_replicate, smul_zero, add_zero, hf]
  field_simp
  ring

/-- **C67.** For three phases the bulk energy of equal surface tensions is the one of arbitrary surface tensions
(`capital_f0`). -/
theorem C67_equal_three (x y z : K) (f : K → K) (sigma lambda1 : K) (hs : x + y + z = 1) (h0 : f 0 = 0) (h1 : f 1 = 0)
    (hf : ∀ x, f (1 - x) = f x) :
    capitalFEqual [x, y, z] f sigma lambda1 = .ok (sigma / 2 * ((f x + f y - f (x + y)) + (f x + f z - f (x + z))
      + (f y + f z - f (y + z)))) := by
  rw [capitalFEqual_harmonic [x, y, z] f sigma lambda1 h0 (by simp [← add_assoc, hs, h1])]
  congr 1
  have hp : ∀ k, k ≤ 3 → psiSum k [x, y, z] f = ((combinations k [x, y, z]).map fun i => difference f i 0).sum := by
    intro k hk
    have := C67_psi k [x, y, z] f hk
    rw [psi, if_pos (by exact hk)] at this
    simpa [h0] using Except.ok.inj this
  simp only [List.length_cons, List.length_nil, List.range_succ, List.range_zero]
  simp only [List.nil_append, List.cons_append, List.map_cons, List.map_nil, List.sum_cons, List.sum_nil, zero_add]
  rw [hp 1 (by norm_num), hp 2 (by norm_num), hp 3 (by norm_num)]
  have exy : f (x + y) = f z := by rw [← hf z]; congr 1; linear_combination hs
  have exz : f (x + z) = f y := by rw [← hf y]; congr 1; linear_combination hs
  have eyz : f (y + z) = f x := by rw [← hf x]; congr 1; linear_combination hs
  simp [combinations, difference, harmonicSum, h0, exy, exz, eyz, hs, h1]
  ring

example : capitalFEqual [(1 : ℚ) / 4, 0, 3 / 4, 0] (fun x => x ^ 2 * (1 - x) ^ 2) 2 7 = .ok (2 * (9 / 256)) := by
  have := C67_equal_pair (K := ℚ) [1 / 4, 0, 3 / 4, 0] 2 (1 / 4) (by
    refine List.Perm.cons _ ?_
    norm_num
    exact (List.Perm.swap _ _ _).trans (List.Perm.refl _)) (fun x => x ^ 2 * (1 - x) ^ 2) 2 7 (by norm_num) (by norm_num)
    (by norm_num) (by norm_num)
  rw [this]
  norm_num

end equal

/-! ### The function of the correction terms -/

theorem capitalH_zero (u : ℝ) : capitalH u 0 = 0 := by simp [capitalH]

theorem abs_add_sq_pos {u v : ℝ} (h : ¬(u = 0 ∧ v = 0)) : 0 < |v| + u ^ 2 := by
  by_cases hv : v = 0
  · have hu : u ≠ 0 := fun hu => h ⟨hu, hv⟩
    have := abs_nonneg v
    positivity
  · have := abs_pos.2 hv
    positivity

theorem capitalH_eq (u v : ℝ) : capitalH u v = |v| * v / (|v| + u ^ 2) := by
  unfold capitalH
  split_ifs with h
  · simp [h.1, h.2]
  · rfl

theorem hasDerivAt_abs_mul (v : ℝ) : HasDerivAt (fun v : ℝ => |v| * v) (2 * |v|) v := by
  rcases lt_trichotomy v 0 with h | rfl | h
  · refine (((hasDerivAt_abs_neg h).mul (hasDerivAt_id v))).congr_deriv ?_
    simp [abs_of_neg h]
    ring
  · rw [hasDerivAt_iff_isLittleO]
    simp only [sub_zero, abs_zero, mul_zero, smul_zero]
    have : (fun x : ℝ => |x|) =o[nhds 0] fun _ => (1 : ℝ) := by
      rw [Asymptotics.isLittleO_one_iff]
      have := (continuous_abs.tendsto (0 : ℝ))
      simpa using this
    simpa using this.mul_isBigO (Asymptotics.isBigO_refl (fun x : ℝ => x) (nhds 0))
  · refine (((hasDerivAt_abs_pos h).mul (hasDerivAt_id v))).congr_deriv ?_
    simp [abs_of_pos h]
    ring

theorem hasDerivAt_capitalH_right (u v : ℝ) :
    HasDerivAt (fun v => capitalH u v) (if u = 0 ∧ v = 0 then 1 else (2 * |v| * u ^ 2 + v ^ 2) / (|v| + u ^ 2) ^ 2) v := by
  by_cases hu : u = 0
  · subst hu
    have e : (fun v => capitalH 0 v) = fun v => v := funext fun v => by
      rw [capitalH_eq]
      by_cases h : v = 0
      · simp [h]
      · have := abs_ne_zero.2 h
        field_simp
        simp
    rw [e]
    refine (hasDerivAt_id v).congr_deriv ?_
    by_cases h : v = 0
    · simp [h]
    · simp [h]
  · have e : (fun v => capitalH u v) = fun v => |v| * v / (|v| + u ^ 2) := funext fun v => capitalH_eq u v
    rw [e, if_neg fun h => hu h.1]
    have hpos := abs_add_sq_pos (u := u) (v := v) fun h => hu h.1
    rcases lt_trichotomy v 0 with h | rfl | h
    · refine ((hasDerivAt_abs_mul v).div ((hasDerivAt_abs_neg h).add_const (u ^ 2)) hpos.ne').congr_deriv ?_
      congr 1
      rw [abs_of_neg h]
      ring
    · have h2 : (fun v : ℝ => |v| * v / (|v| + u ^ 2)) = fun v => (|v| * v) * (|v| + u ^ 2)⁻¹ := rfl
      rw [hasDerivAt_iff_isLittleO]
      have hd := hasDerivAt_iff_isLittleO.1 (hasDerivAt_abs_mul 0)
      simp only [sub_zero, abs_zero, mul_zero, smul_zero] at hd ⊢
      have hb : (fun x : ℝ => (|x| + u ^ 2)⁻¹) =O[nhds 0] fun _ => (1 : ℝ) := by
        refine Filter.Tendsto.isBigO_one ℝ (c := (|(0:ℝ)| + u ^ 2)⁻¹) ?_
        refine Filter.Tendsto.inv₀ ?_ hpos.ne'
        exact ((continuous_abs.tendsto (0 : ℝ))).add_const _
      have := hd.mul_isBigO hb
      simpa [div_eq_mul_inv] using this
    · refine ((hasDerivAt_abs_mul v).div ((hasDerivAt_abs_pos h).add_const (u ^ 2)) hpos.ne').congr_deriv ?_
      congr 1
      rw [abs_of_pos h]
      ring

theorem hasDerivAt_capitalH_left (u v : ℝ) :
    HasDerivAt (fun u => capitalH u v) (if u = 0 ∧ v = 0 then 0 else -2 * u * |v| * v / (|v| + u ^ 2) ^ 2) u := by
  by_cases hv : v = 0
  · subst hv
    have e : (fun u => capitalH u 0) = fun _ => 0 := funext capitalH_zero
    rw [e]
    refine (hasDerivAt_const u (0 : ℝ)).congr_deriv ?_
    simp
  · have e : (fun u => capitalH u v) = fun u => |v| * v / (|v| + u ^ 2) := funext fun u => capitalH_eq u v
    rw [e, if_neg fun h => hv h.2]
    have hpos := abs_add_sq_pos (u := u) (v := v) fun h => hv h.2
    refine ((hasDerivAt_const u (|v| * v)).div (((hasDerivAt_id u).pow 2).const_add |v|) hpos.ne').congr_deriv ?_
    congr 1
    simp
    ring

/-- **C67.** The derivatives that are given to the computer algebra system are the derivatives of the function, in both
arguments and everywhere, including the point where the expression is not defined; other arguments are refused. -/
theorem C67_h_derivative (u v : ℝ) :
    (∃ d, capitalHDiff 1 u v = .ok d ∧ HasDerivAt (fun u => capitalH u v) d u) ∧
    (∃ d, capitalHDiff 2 u v = .ok d ∧ HasDerivAt (fun v => capitalH u v) d v) ∧
    ∀ i, i ≠ 1 → i ≠ 2 → capitalHDiff i u v = .error .exception :=
  ⟨⟨_, rfl, hasDerivAt_capitalH_left u v⟩, ⟨_, rfl, hasDerivAt_capitalH_right u v⟩, fun i h1 h2 => by
    simp [capitalHDiff, h1, h2]⟩

example : capitalHDiff 2 0 0 = .ok 1 := by simp [capitalHDiff]

/-! ### The correction terms -/

theorem correctionG_absent {n : ℕ} (coeff : List (Fin n) → Fin n → ℝ) (c : Fin n → ℝ)
    (h : (Finset.univ.filter fun i => c i ≠ 0).card ≤ 3) : correctionG coeff c = 0 := by
  unfold correctionG
  refine List.sum_eq_zero fun y hy => ?_
  obtain ⟨i, hi, rfl⟩ := List.mem_map.1 hy
  obtain ⟨hsub, hlen⟩ := combinations_sublist _ _ _ hi
  have hz : (i.map c).prod = 0 := by
    by_contra hne
    rw [List.prod_eq_zero_iff] at hne
    have hn : i.Nodup := hsub.nodup (List.nodup_finRange n)
    have hs : i.toFinset ⊆ Finset.univ.filter fun i => c i ≠ 0 := by
      intro j hj
      simp only [Finset.mem_filter, Finset.mem_univ, true_and]
      intro hc
      exact hne (List.mem_map.2 ⟨j, List.mem_toFinset.1 hj, hc⟩)
    have := Finset.card_le_card hs
    rw [List.toFinset_card_of_nodup hn, hlen] at this
    omega
  refine List.sum_eq_zero fun y hy => ?_
  obtain ⟨s, _, rfl⟩ := List.mem_map.1 hy
  rw [hz, capitalH_zero, mul_zero]

theorem exists_zero {n : ℕ} (c : Fin n → ℝ) (m : ℕ) (h : (Finset.univ.filter fun i => c i ≠ 0).card ≤ m)
    (s : Finset (Fin n)) (hs : m < s.card) : ∃ i ∈ s, c i = 0 := by
  by_contra hne
  push Not at hne
  have : s ⊆ Finset.univ.filter fun i => c i ≠ 0 := fun i hi => by simp [hne i hi]
  have := Finset.card_le_card this
  omega

theorem stabilizationTerm_absent {n : ℕ} (theta : Fin n → Fin n → Fin n → Fin n → ℝ) (c : Fin n → ℝ)
    (h : (Finset.univ.filter fun i => c i ≠ 0).card ≤ 2) : stabilizationTerm theta c = 0 := by
  unfold stabilizationTerm
  rw [Finset.sum_eq_zero, Finset.sum_eq_zero, sub_zero]
  · intro j _
    refine Finset.sum_eq_zero fun i _ => ?_
    split_ifs with hij
    · rw [mul_eq_zero]
      by_cases hz : c i ^ 2 * c j ^ 2 = 0
      · exact Or.inl hz
      · right
        have hi : c i ≠ 0 := fun e => hz (by rw [e]; ring)
        have hj : c j ≠ 0 := fun e => hz (by rw [e]; ring)
        have hk : ∀ k, ¬(k = i ∨ k = j) → c k = 0 := by
          intro k hk
          push Not at hk
          obtain ⟨m, hm, hm0⟩ := exists_zero c 2 h {k, i, j} (by
            rw [Finset.card_insert_of_notMem (by simp [hk]), Finset.card_insert_of_notMem (by simp [hij.ne])]
            simp)
          simp only [Finset.mem_insert, Finset.mem_singleton] at hm
          rcases hm with rfl | rfl | rfl
          · exact hm0
          · exact absurd hm0 hi
          · exact absurd hm0 hj
        refine Finset.sum_eq_zero fun l _ => ?_
        split_ifs with hl
        · rfl
        · refine Finset.sum_eq_zero fun k _ => ?_
          rw [hk l hl]
          simp [capitalH_zero]
    · rfl
  · intro i _
    refine Finset.sum_eq_zero fun j _ => Finset.sum_eq_zero fun k _ => ?_
    split_ifs with hijk
    · obtain ⟨m, hm, hm0⟩ := exists_zero c 2 h {k, j, i} (by
        rw [Finset.card_insert_of_notMem (by simp [hijk.2.ne, (hijk.2.trans hijk.1).ne]),
          Finset.card_insert_of_notMem (by simp [hijk.1.ne])]
        simp)
      simp only [Finset.mem_insert, Finset.mem_singleton] at hm
      rcases hm with rfl | rfl | rfl <;> rw [hm0] <;> ring
    · rfl

/-- C67. With three phases the stabilisation is the product of the squares: the coefficients `Θ` belong to pairs of phases
outside of another pair, of which there are none. -/
theorem C67_stabilization_three (theta : Fin 3 → Fin 3 → Fin 3 → Fin 3 → ℝ) (c : Fin 3 → ℝ) :
    stabilizationTerm theta c = c 0 ^ 2 * c 1 ^ 2 * c 2 ^ 2 := by
  simp [stabilizationTerm, Fin.sum_univ_three]
  ring

/-- **C67.** The terms that make the bulk energy consistent vanish where they have to: the correction where at most three
phases are present, the stabilisation where at most two are, for every choice of their coefficients. -/
theorem C67_correction_absent {n : ℕ} (coeff : List (Fin n) → Fin n → ℝ) (theta : Fin n → Fin n → Fin n → Fin n → ℝ)
    (c : Fin n → ℝ) :
    ((Finset.univ.filter fun i => c i ≠ 0).card ≤ 3 → correctionG coeff c = 0) ∧
    ((Finset.univ.filter fun i => c i ≠ 0).card ≤ 2 → stabilizationTerm theta c = 0) :=
  ⟨correctionG_absent coeff c, stabilizationTerm_absent theta c⟩

example : correctionG (n := 4) (fun _ _ => 1) (fun _ => 1 / 4) ≠ 0 := by
  have : combinations 4 (List.finRange 4) = [[0, 1, 2, 3]] := by decide
  unfold correctionG
  rw [this]
  simp [capitalH_eq]
  norm_num

/-! ### The free energy -/

theorem sum_lt_symm {N : ℕ} (g : Fin N → Fin N → ℝ) (hs : ∀ i j, g i j = g j i) (h0 : ∀ i, g i i = 0) :
    2 * ∑ i, ∑ j, (if j < i then g i j else 0) = ∑ i, ∑ j, g i j := by
  have e : ∀ i j, g i j = (if j < i then g i j else 0) + if i < j then g j i else 0 := by
    intro i j
    rcases lt_trichotomy i j with h | rfl | h
    · simp [h, h.le, hs i j]
    · simp [h0]
    · simp [h, h.le, hs i j]
  have : ∑ i, ∑ j, g i j = (∑ i, ∑ j, if j < i then g i j else 0) + ∑ i, ∑ j, if i < j then g j i else 0 := by
    rw [← Finset.sum_add_distrib]
    refine Finset.sum_congr rfl fun i _ => ?_
    rw [← Finset.sum_add_distrib]
    exact Finset.sum_congr rfl fun j _ => e i j
  rw [this, Finset.sum_comm (f := fun i j => if i < j then g j i else 0)]
  ring

theorem sqrt_doubleWell {x : ℝ} (h0 : 0 ≤ x) (h1 : x ≤ 1) : Real.sqrt (PhaseField.doubleWell x) = x * (1 - x) := by
  unfold PhaseField.doubleWell
  rw [← mul_pow, Real.sqrt_sq (mul_nonneg h0 (by linarith))]

/-- **C67.** The two factors of the free energy for the double well. -/
theorem C67_ab : computeAb PhaseField.doubleWell = (3 / 2, 12) := by
  have hi : ∫ c in (0 : ℝ)..1, Real.sqrt (PhaseField.doubleWell c) = 1 / 6 := by
    have : ∫ c in (0 : ℝ)..1, Real.sqrt (PhaseField.doubleWell c) = ∫ c in (0 : ℝ)..1, (c - c ^ 2) := by
      refine intervalIntegral.integral_congr fun x hx => ?_
      rw [Set.uIcc_of_le zero_le_one] at hx
      rw [sqrt_doubleWell hx.1 hx.2]
      ring
    rw [this, intervalIntegral.integral_sub (by simp) (by simp)]
    simp
    norm_num
  have h0 : Real.sqrt (PhaseField.doubleWell 0) = 0 := by simp [PhaseField.doubleWell]
  have h1 : Real.sqrt (PhaseField.doubleWell 1) = 0 := by simp [PhaseField.doubleWell]
  have h2 : Real.sqrt (PhaseField.doubleWell (1 / 2)) = 1 / 4 := by
    rw [sqrt_doubleWell (by norm_num) (by norm_num)]
    norm_num
  unfold computeAb
  simp only [hi, h0, h1, h2]
  norm_num

/-- **C67.** Without the correction terms the model is the one of `free_energy_functional_n_phases`, although that one
eliminates a phase and distributes the coefficients differently: for every composition and gradient of all phases the two
free energies agree when `ε` is four times the interface width. -/
theorem C67_same_as_n_phases {n D : ℕ} (sigma : Fin (n + 1) → Fin (n + 1) → ℝ) (hs : ∀ i j, sigma i j = sigma j i)
    (h0 : ∀ i, sigma i i = 0) {w : ℝ} (hw : w ≠ 0) (c : Fin (n + 1) → ℝ) (hc : ∑ m, c m = 1)
    (g : Fin (n + 1) → Fin D → ℝ) (hg : ∀ a, ∑ m, g m a = 0) :
    PhaseField.freeEnergyN sigma w PhaseField.doubleWell PhaseField.doubleWell 0 true true
      (PhaseField.orderParameters c) (fun i => g i.castSucc)
      = .ok (freeEnergy (4 * w) sigma (fun _ _ => 0) (fun _ _ _ _ => 0) 0 c g) := by
  unfold PhaseField.freeEnergyN
  rw [if_neg (by simp [h0])]
  congr 1
  simp only [if_true]
  rw [PhaseField.bulk_sum sigma h0 w _ _ c hc, PhaseField.interface_symmetric sigma hs h0 w g hg]
  unfold freeEnergy freeEnergyInterfacial freeEnergyBulk capitalF0
  rw [C67_ab]
  have hcorr : correctionG (n := n + 1) (fun _ _ => 0) c = 0 := by simp [correctionG]
  rw [hcorr]
  have e1 := sum_lt_symm (fun i j => sigma i j * ∑ d, g i d * g j d) (fun i j => by
    rw [hs i j]
    simp only [mul_comm]) (fun i => by rw [h0, zero_mul])
  have e2 := sum_lt_symm (fun i j => sigma i j / 2 * (PhaseField.doubleWell (c i) + PhaseField.doubleWell (c j)
    - PhaseField.doubleWell (c i + c j))) (fun i j => by
      rw [hs i j, add_comm (c i), add_comm (PhaseField.doubleWell (c i))]) (fun i => by rw [h0]; ring)
  rw [← e1, ← e2]
  have e3 : (∑ j : Fin (n + 1), ∑ i, if i < j then sigma i j / 2 * (PhaseField.doubleWell (c i) + PhaseField.doubleWell (c j)
      - PhaseField.doubleWell (c i + c j)) else 0) = ∑ i, ∑ j, if j < i then sigma i j / 2 * (PhaseField.doubleWell (c i)
      + PhaseField.doubleWell (c j) - PhaseField.doubleWell (c i + c j)) else 0 := by
    refine Finset.sum_congr rfl fun j _ => Finset.sum_congr rfl fun i _ => ?_
    split_ifs with h
    · rw [hs i j, add_comm (c i), add_comm (PhaseField.doubleWell (c i))]
    · rfl
  rw [e3]
  field_simp
  ring

/-- **C67.** The surface tensions are what the model says they are: the free energy, integrated across the interface
between any two phases, is their surface tension, whatever the correction terms are. -/
theorem C67_surface_tension {n : ℕ} (sigma : Fin (n + 1) → Fin (n + 1) → ℝ) (hs : ∀ i j, sigma i j = sigma j i)
    (h0 : ∀ i, sigma i i = 0) {epsilon : ℝ} (he : 0 < epsilon) (coeff : List (Fin (n + 1)) → Fin (n + 1) → ℝ)
    (theta : Fin (n + 1) → Fin (n + 1) → Fin (n + 1) → Fin (n + 1) → ℝ) (stabilization : ℝ) {k l : Fin (n + 1)}
    (hkl : k ≠ l) :
    MeasureTheory.Integrable (fun x => freeEnergy (D := 1) epsilon sigma coeff theta stabilization
        (PhaseField.pairOf k l (AllenCahn.profile epsilon x))
        (fun i _ => deriv (fun y => PhaseField.pairOf k l (AllenCahn.profile epsilon y) i) x)) ∧
    ∫ x, freeEnergy (D := 1) epsilon sigma coeff theta stabilization (PhaseField.pairOf k l (AllenCahn.profile epsilon x))
        (fun i _ => deriv (fun y => PhaseField.pairOf k l (AllenCahn.profile epsilon y) i) x) = sigma k l := by
  have hw : 0 < epsilon / 4 := by linarith
  obtain ⟨F, hF, hI, hV⟩ := PhaseField.C63_surface_tension sigma hs h0 hw hkl
  have hprof : PhaseField.analyticProfile (epsilon / 4) = AllenCahn.profile epsilon := by
    rw [PhaseField.analyticProfile_fun]
    congr 1
    ring
  have hdiff : ∀ x, DifferentiableAt ℝ (AllenCahn.profile epsilon) x := fun x =>
    (AllenCahn.hasDerivAt_profile he.ne' x).differentiableAt
  have hgrad : ∀ x m, deriv (fun y => PhaseField.pairOf k l (AllenCahn.profile epsilon y) m) x
      = deriv (AllenCahn.profile epsilon) x * ((if m = k then 1 else 0) - if m = l then 1 else 0) := by
    intro x m
    unfold PhaseField.pairOf
    by_cases h1 : m = k
    · subst h1
      simp [hkl]
    · by_cases h2 : m = l
      · subst h2
        simp only [h1, if_false, if_true]
        rw [deriv_const_sub]
        ring
      · simp [h1, h2]
  have hcard : ∀ p, (Finset.univ.filter fun i => PhaseField.pairOf k l p i ≠ 0).card ≤ 2 := by
    intro p
    refine le_trans (Finset.card_le_card (t := {k, l}) ?_) Finset.card_le_two
    intro i hi
    have hi := (Finset.mem_filter.1 hi).2
    by_contra hn
    simp only [Finset.mem_insert, Finset.mem_singleton, not_or] at hn
    simp [PhaseField.pairOf, hn.1, hn.2] at hi
  have heq : ∀ x, freeEnergy (D := 1) epsilon sigma coeff theta stabilization
      (PhaseField.pairOf k l (AllenCahn.profile epsilon x))
      (fun i _ => deriv (fun y => PhaseField.pairOf k l (AllenCahn.profile epsilon y) i) x) = F x := by
    intro x
    have h1 := hF x
    rw [hprof] at h1
    rw [C67_same_as_n_phases (D := 1) sigma hs h0 hw.ne' _ (PhaseField.sum_pairOf hkl _)
      (fun i _ => deriv (fun y => PhaseField.pairOf k l (AllenCahn.profile epsilon y) i) x) (by
        intro _
        simp only [hgrad]
        simp [← Finset.mul_sum, Finset.sum_sub_distrib])] at h1
    rw [← Except.ok.inj h1]
    unfold freeEnergy
    rw [correctionG_absent coeff _ ((hcard _).trans (by norm_num)), stabilizationTerm_absent theta _ (hcard _),
      correctionG_absent _ _ ((hcard _).trans (by norm_num)), stabilizationTerm_absent _ _ (hcard _)]
    congr 2 <;> ring
  simp only [heq]
  exact ⟨hI, hV⟩

example : ∫ x, freeEnergy (n := 4) (D := 1) 4 (PhaseField.scalarTension (1 / 100)) (fun _ _ => 3) (fun _ _ _ _ => 5) 2
    (PhaseField.pairOf 1 2 (AllenCahn.profile 4 x))
    (fun i _ => deriv (fun y => PhaseField.pairOf 1 2 (AllenCahn.profile 4 y) i) x) = 1 / 100 := by
  have h := (C67_surface_tension (n := 3) (PhaseField.scalarTension (1 / 100))
    (fun i j => by simp [PhaseField.scalarTension, eq_comm]) (fun i => by simp [PhaseField.scalarTension])
    (epsilon := 4) (by norm_num) (fun _ _ => 3) (fun _ _ _ _ => 5) 2 (k := 1) (l := 2) (by decide)).2
  rw [h]
  unfold PhaseField.scalarTension
  rw [if_pos (by decide)]

/-- the coefficients of two phases -/
example (s : ℚ) (hs : s ≠ 0) : IsDiffusion (n := 2) !![0, s; s, 0] !![-1 / (2 * s), 1 / (2 * s); 1 / (2 * s), -1 / (2 * s)]
    (fun _ => -1 / 2) := by
  refine ⟨?_, ?_, ?_⟩
  · intro i j
    fin_cases i <;> fin_cases j <;> rfl
  · intro i
    fin_cases i <;> simp [Fin.sum_univ_two] <;> ring
  · intro i j
    fin_cases i <;> fin_cases j <;> simp [Fin.sum_univ_two] <;> field_simp <;> norm_num

end Boyer
end Lbm
