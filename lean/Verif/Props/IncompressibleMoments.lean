import Verif.IncompressibleMoments
import Verif.Props.PoiseuilleMethods
import Verif.Props.Continuous
import Mathlib.Algebra.MvPolynomial.Funext

/-!
C111: `compressible_to_incompressible_moment_value` turns the moments of the compressible equilibria into those of the
incompressible ones, and what is left out for `hydrodynamic_moment_values`.
-/

namespace Lbm
namespace IncompressibleMoments

open MvPolynomial Spec

section
variable {K σ : Type} [CommRing K]

theorem convert_of_subset (rho : σ) (isU : σ → Prop) (p : MvPolynomial σ K) (s : Finset (σ →₀ ℕ)) (hs : p.support ⊆ s) :
    convert rho isU p = ∑ m ∈ s, monomial (convertMonomial rho isU m) (coeff m p) :=
  Finset.sum_subset hs fun m _ hm => by rw [notMem_support_iff.1 hm, monomial_zero]

theorem convert_monomial (rho : σ) (isU : σ → Prop) (m : σ →₀ ℕ) (c : K) :
    convert rho isU (monomial m c) = monomial (convertMonomial rho isU m) c := by
  classical
  rw [convert_of_subset rho isU _ {m} support_monomial_subset, Finset.sum_singleton, coeff_monomial, if_pos rfl]

/-- the conversion is linear: it may be applied to the summands of a moment -/
theorem C111_linear (rho : σ) (isU : σ → Prop) (p q : MvPolynomial σ K) (c : K) :
    convert rho isU (p + q) = convert rho isU p + convert rho isU q ∧
      convert rho isU (C c * p) = C c * convert rho isU p := by
  classical
  constructor
  · rw [convert_of_subset rho isU (p + q) (p.support ∪ q.support) support_add,
      convert_of_subset rho isU p (p.support ∪ q.support) Finset.subset_union_left,
      convert_of_subset rho isU q (p.support ∪ q.support) Finset.subset_union_right, ← Finset.sum_add_distrib]
    exact Finset.sum_congr rfl fun m _ => by rw [coeff_add, map_add]
  · rw [convert_of_subset rho isU (C c * p) p.support fun m hm => ?_, convert, Finset.mul_sum]
    · exact Finset.sum_congr rfl fun m _ => by rw [coeff_C_mul, C_mul_monomial]
    · rw [mem_support_iff, coeff_C_mul] at hm
      exact mem_support_iff.2 fun h => hm (by rw [h, mul_zero])

theorem convert_sum {ι : Type} (rho : σ) (isU : σ → Prop) (s : Finset ι) (p : ι → MvPolynomial σ K) :
    convert rho isU (∑ i ∈ s, p i) = ∑ i ∈ s, convert rho isU (p i) := by
  classical
  induction s using Finset.induction_on with
  | empty => simp [convert]
  | insert a s ha ih => rw [Finset.sum_insert ha, Finset.sum_insert ha, (C111_linear rho isU _ _ 0).1, ih]

/-- C111: a moment with the factor density, `rho * q(u, …)`, becomes `rho * q(0, …) + (q(u, …) - q(0, …))`: the
density multiplies what the fluid at rest contributes, and nothing else -/
theorem C111_value (rho : σ) (isU : σ → Prop) [DecidablePred isU] (hr : ¬isU rho) (q : MvPolynomial σ K) (x : σ → K) :
    eval x (convert rho isU (X rho * q)) =
      x rho * eval (fun i => if isU i then 0 else x i) q + (eval x q - eval (fun i => if isU i then 0 else x i) q) := by
  classical
  have hX : X rho * q = ∑ m ∈ q.support, monomial (m + Finsupp.single rho 1) (coeff m q) := by
    conv_lhs => rw [q.as_sum]
    rw [Finset.mul_sum]
    refine Finset.sum_congr rfl fun m _ => ?_
    rw [mul_comm, monomial_add_single, pow_one]
  rw [hX, convert_sum, map_sum]
  conv_rhs => rw [q.as_sum]
  simp only [map_sum]
  rw [← Finset.sum_sub_distrib, Finset.mul_sum, ← Finset.sum_add_distrib]
  refine Finset.sum_congr rfl fun m hm => ?_
  have hmem : rho ∈ (m + Finsupp.single rho 1).support := by simp
  rw [convert_monomial, convertMonomial]
  by_cases hu : ∃ i ∈ m.support, isU i
  · obtain ⟨i, hi, hiu⟩ := hu
    rw [if_pos ⟨hmem, i, by simp only [Finsupp.mem_support_iff, Finsupp.add_apply] at hi ⊢; omega, hiu⟩, add_tsub_cancel_right]
    have hz : eval (fun i => if isU i then 0 else x i) (monomial m (coeff m q)) = 0 := by
      rw [eval_monomial, Finsupp.prod, Finset.prod_eq_zero hi, mul_zero]
      rw [if_pos hiu, zero_pow (Finsupp.mem_support_iff.1 hi)]
    rw [hz]
    ring
  · rw [if_neg]
    · have he : eval (fun i => if isU i then 0 else x i) (monomial m (coeff m q)) = eval x (monomial m (coeff m q)) := by
        rw [eval_monomial, eval_monomial]
        congr 1
        refine Finset.prod_congr rfl fun i hi => ?_
        simp only [if_neg fun h => hu ⟨i, hi, h⟩]
      rw [he, monomial_add_single, map_mul, map_pow, eval_X]
      ring
    · rintro ⟨-, i, hi, hiu⟩
      refine hu ⟨i, ?_, hiu⟩
      have : i ≠ rho := fun h => hr (h ▸ hiu)
      simpa [Finsupp.single_apply, this.symm] using hi

/-- converting such a moment a second time changes nothing -/
theorem C111_idempotent (rho : σ) (isU : σ → Prop) (p : MvPolynomial σ K) (hp : ∀ m ∈ p.support, m rho ≤ 1) :
    convert rho isU (convert rho isU p) = convert rho isU p := by
  classical
  conv_lhs => rw [convert.eq_1 rho isU p]
  rw [convert_sum, convert]
  refine Finset.sum_congr rfl fun m hm => ?_
  rw [convert_monomial]
  congr 1
  by_cases h : rho ∈ m.support ∧ ∃ i ∈ m.support, isU i
  · have e : convertMonomial rho isU m = m - Finsupp.single rho 1 := by rw [convertMonomial, if_pos h]
    rw [e, convertMonomial, if_neg]
    rintro ⟨h1, -⟩
    rw [Finsupp.mem_support_iff, Finsupp.tsub_apply, Finsupp.single_eq_same] at h1
    have := hp m hm
    omega
  · have e : convertMonomial rho isU m = m := by rw [convertMonomial, if_neg h]
    rw [e, e]

/-- in general it does: `rho ^ 2 * u` becomes `rho * u` and then `u` -/
theorem C111_not_idempotent (rho : σ) (isU : σ → Prop) (u : σ) (hu : isU u) (hr : ¬isU rho) [Nontrivial K] :
    convert rho isU (X rho ^ 2 * X u : MvPolynomial σ K) = X rho * X u ∧
      convert rho isU (X rho * X u : MvPolynomial σ K) = X u ∧ (X rho * X u : MvPolynomial σ K) ≠ X u := by
  classical
  have hne : u ≠ rho := fun h => hr (h ▸ hu)
  have hm : ∀ n : ℕ, (X rho ^ n * X u : MvPolynomial σ K) =
      MvPolynomial.monomial (Finsupp.single u 1 + Finsupp.single rho n) 1 := by
    intro n
    rw [monomial_add_single, mul_comm]
    rfl
  have hc : ∀ n : ℕ, convert rho isU (X rho ^ (n + 1) * X u : MvPolynomial σ K) = X rho ^ n * X u := by
    intro n
    rw [hm, hm, convert_monomial, convertMonomial, if_pos ⟨by simp [hne], u, by simp, hu⟩]
    rw [Finsupp.single_add, ← add_assoc, add_tsub_cancel_right]
  refine ⟨by simpa using hc 1, by simpa using hc 0, fun h => ?_⟩
  have := congrArg (coeff (Finsupp.single u 1)) h
  rw [coeff_X, mul_comm, X, X, monomial_mul, coeff_monomial] at this
  simp at this

end

/-! ### Moments of the equilibria of the code -/

section
variable {K : Type} [Field K] [CharZero K] [DecidableEq K] {D : ℕ}

/-- values of the symbols `rho`, `u_0`, … -/
def point (rho : K) (u : Fin D → K) : Option (Fin D) → K := fun i => i.elim rho u

omit [DecidableEq K] in
theorem eval_convert (p : MvPolynomial (Option (Fin D)) K) (P : MvPolynomial (Fin D) K) (c : K)
    (h : ∀ rho u, eval (point rho u) p = rho * eval u P + c) (rho : K) (u : Fin D → K) :
    eval (point rho u) (convert none (fun i => i.isSome) p) = rho * eval 0 P + (eval u P - eval 0 P) + c := by
  have hp : p = X none * rename some P + C c := by
    refine MvPolynomial.funext fun x => ?_
    have hx : x = point (x none) fun i => x (some i) := by funext i; cases i <;> rfl
    rw [hx, h, map_add, map_mul, eval_X, eval_rename, eval_C]
    rfl
  have h0 : convert none (fun i : Option (Fin D) => i.isSome) (C c : MvPolynomial (Option (Fin D)) K) = C c := by
    rw [C_apply, convert_monomial, convertMonomial, if_neg (by simp)]
  rw [hp, (C111_linear _ _ _ _ 0).1, h0, map_add, C111_value _ _ (by simp), eval_rename, eval_rename, eval_C]
  have e1 : (point rho u) ∘ some = u := rfl
  have e2 : (fun i : Option (Fin D) => if i.isSome = true then 0 else point rho u i) ∘ some = (0 : Fin D → K) := by
    funext i
    simp
  have e3 : point rho u none = rho := rfl
  rw [e1, e2, e3]

omit [DecidableEq K] in
theorem exists_eqPoly {Q : ℕ} (c : Fin Q → Fin D → K) (w : Fin Q → K) (cs G H : K) (q : Fin Q) :
    ∃ P : MvPolynomial (Fin D) K, ∀ u, eval u P = eqPoly c w cs 1 1 G H u q := by
  let L : MvPolynomial (Fin D) K := ∑ a, C (c q a) * X a
  let U : MvPolynomial (Fin D) K := ∑ a, X a * X a
  have hL : ∀ u, eval u L = dot (c q) u := fun u => by simp [L, dot]
  have hU : ∀ u, eval u U = dot u u := fun u => by simp [U, dot]
  refine ⟨C (w q) * (1 + C (1 / cs) * L + C G * (C (1 / 2 / cs ^ 2) * L ^ 2 - C (1 / 2 / cs) * U) +
    C H * (C (1 / 6 / cs ^ 3) * L ^ 3 - C (1 / 2 / cs ^ 2) * U * L)), fun u => ?_⟩
  simp only [map_add, map_mul, map_sub, map_pow, map_one, eval_C, hL, hU, eqPoly]
  ring

/-- C111: on every predefined stencil, for every order of the equilibrium and every moment (also of delta equilibria): the
moment of the compressible discrete Maxwellian is a polynomial in density and velocity, and whatever polynomial
describes it, its conversion describes the moment of the incompressible one -/
theorem C111_discrete {e} (he : e ∈ Tables.predefined) (o : MaxwellOptions K e.2.2) (hw : getWeights e.2.2 = some o.weights)
    (m : PExpr) :
    (∃ p : MvPolynomial (Option (Fin (e.2.2.headD []).length)) K, ∀ rho u,
      eval (point rho u) p = o.meqOf true ⟨rho, rho - 1, u⟩ m) ∧
    ∀ p : MvPolynomial (Option (Fin (e.2.2.headD []).length)) K,
      (∀ rho u, eval (point rho u) p = o.meqOf true ⟨rho, rho - 1, u⟩ m) →
      ∀ rho u, eval (point rho u) (convert none (fun i => i.isSome) p) = o.meqOf false ⟨rho, rho - 1, u⟩ m := by
  choose P hP using exists_eqPoly (vel (K := K) e.2.2 (e.2.2.headD []).length) (weightVec e.2.2 o.weights) (1 / 3)
    (g2 (o.order.getD 4)) (g3 (o.order.getD 4))
  let A : MvPolynomial (Fin (e.2.2.headD []).length) K := ∑ q, C ((m.at' (e.2.2.get q) : ℤ) : K) * P q
  let b : K := -∑ q, ((m.at' (e.2.2.get q) : ℤ) : K) *
    if o.deviationOnly then eqPoly (vel e.2.2 (e.2.2.headD []).length) (weightVec e.2.2 o.weights) (1 / 3) 1 1 0 0 (fun _ => 0) q
    else 0
  have hA : ∀ u, eval u A = ∑ q, ((m.at' (e.2.2.get q) : ℤ) : K) *
      eqPoly (vel e.2.2 (e.2.2.headD []).length) (weightVec e.2.2 o.weights) (1 / 3) 1 1 (g2 (o.order.getD 4))
        (g3 (o.order.getD 4)) u q := fun u => by simp only [A, map_sum, map_mul, eval_C, hP]
  have h1 : ∀ rho u, o.meqOf true ⟨rho, rho - 1, u⟩ m = rho * eval u A + b := by
    intro rho u
    rw [hA, MaxwellOptions.meqOf, Finset.mul_sum, ← sub_eq_add_neg, ← Finset.sum_sub_distrib]
    refine Finset.sum_congr rfl fun q _ => ?_
    rw [Poiseuille.populations_eq he o hw]
    simp only [rhoOut, rhoIn, if_true, eqPoly]
    ring
  refine ⟨⟨X none * rename some A + C b, fun rho u => ?_⟩, fun p hp rho u => ?_⟩
  · rw [h1, map_add, map_mul, eval_X, eval_rename, eval_C]
    rfl
  · rw [eval_convert p A b (fun rho u => by rw [hp, h1]), hA, hA, MaxwellOptions.meqOf, ← Finset.sum_sub_distrib,
      Finset.mul_sum, ← Finset.sum_add_distrib, ← sub_eq_add_neg, ← Finset.sum_sub_distrib]
    refine Finset.sum_congr rfl fun q _ => ?_
    rw [Poiseuille.populations_eq he o hw]
    simp only [rhoOut, rhoIn, Bool.false_eq_true, if_false, eqPoly, Pi.zero_apply, dot, mul_zero, Finset.sum_const_zero]
    ring

omit [DecidableEq K] in
/-- third moments of an equilibrium of second order -/
theorem eqPoly_m3 {Q : ℕ} {c : Fin Q → Fin D → K} {w : Fin Q → K} {cs : K} (h : Isotropic5 c w cs) (hcs : cs ≠ 0)
    (ro ri G : K) (u : Fin D → K) (a b d : Fin D) :
    ∑ q, c q a * c q b * c q d * eqPoly c w cs ro ri G 0 u q = ro * cs * (δ a b * u d + δ a d * u b + δ b d * u a) := by
  have e : ∀ q, c q a * c q b * c q d * eqPoly c w cs ro ri G 0 u q =
      (ro * ri - ro * G * (1 / 2 / cs * dot u u)) * (w q * c q a * c q b * c q d) +
      (ro / cs) * (w q * dot (c q) (fun k => δ a k) * dot (c q) (fun k => δ b k) * dot (c q) (fun k => δ d k) * dot (c q) u) +
      (ro * G * (1 / 2 / cs ^ 2)) * (w q * dot (c q) (fun k => δ a k) * dot (c q) (fun k => δ b k) * dot (c q) (fun k => δ d k) *
        dot (c q) u * dot (c q) u) :=
    fun q => by rw [← comp_eq_dot, ← comp_eq_dot, ← comp_eq_dot]; unfold eqPoly; ring
  have hs : ∀ i j : Fin D, (δ j i : K) = δ i j := fun i j => by unfold δ; simp only [eq_comm]
  simp only [e, Finset.sum_add_distrib, ← Finset.mul_sum, h.m3, h.c4, h.c5, dot_δ, hs a, hs b d]
  rw [hs b a, hs d a, hs d b]
  field_simp
  ring

end

/-! ### The continuous equilibrium -/

section
open _root_.Lbm.Continuous _root_.Lbm.Continuous.HydroMaxwellian
variable {D : ℕ}

/-- removal of the terms of high order -/
noncomputable def cut (order : Option ℕ) (p : MvPolynomial (Fin D) ℝ) : MvPolynomial (Fin D) ℝ :=
  match order with
  | none => p
  | some k => truncate k p

theorem rawMoment_cut (g : HydroMaxwellian) (hc : 0 < g.csq) (e : Fin D → ℕ) (u : Fin D → ℝ) :
    g.rawMoment e u = eval u (cut g.order (g.rawPoly e)) := by
  rcases ho : g.order with - | k
  · rw [C49_class_moment _ hc ho, ← eval_rawPoly _ hc]
    rfl
  · rw [rawMoment, ho, correctOrder_some k (g.rawPoly e) fun u => by rw [eval_rawPoly _ hc, rawMoment_term _ hc]]
    rfl

theorem eval_cut (order : Option ℕ) (a b : ℝ) (Q : MvPolynomial (Fin D) ℝ) (u : Fin D → ℝ) :
    eval u (cut order (C a * Q + C b)) = a * eval u (cut order Q) + b ∧ eval 0 (cut order Q) = eval 0 Q := by
  rcases order with - | k
  · simp [cut]
  · constructor
    · have h : truncate k (C a * Q + C b) = C a * truncate k Q + C b := by
        refine MvPolynomial.ext _ _ fun d => ?_
        rw [coeff_truncate, coeff_add, coeff_add, coeff_C_mul, coeff_C_mul, coeff_truncate, coeff_C]
        by_cases hd : d.degree ≤ k
        · simp only [if_pos hd]
        · have : (0 : Fin D →₀ ℕ) ≠ d := fun h => hd (by rw [← h]; simp)
          simp [hd, this]
      simp only [cut, h, map_add, map_mul, eval_C]
    · rw [cut, eval_zero, constantCoeff_eq, coeff_truncate, if_pos (by simp)]

/-- the same for the moments of the continuous Maxwellian with background density one, for every truncation order -/
theorem C111_continuous (h : HydroMaxwellian) (hc : 0 < h.csq) (hb : h.rhoBackground = 1) (e : Fin D → ℕ) :
    (∃ p : MvPolynomial (Option (Fin D)) ℝ, ∀ rho u,
      eval (point rho u) p = HydroMaxwellian.rawMoment { h with compressible := true, rho := rho, deltaRho := rho - 1 } e u) ∧
    ∀ p : MvPolynomial (Option (Fin D)) ℝ,
      (∀ rho u, eval (point rho u) p =
        HydroMaxwellian.rawMoment { h with compressible := true, rho := rho, deltaRho := rho - 1 } e u) →
      ∀ rho u, eval (point rho u) (convert none (fun i => i.isSome) p) =
        HydroMaxwellian.rawMoment { h with compressible := false, rho := rho, deltaRho := rho - 1 } e u := by
  obtain ⟨P, hP0, hP⟩ : ∃ P : MvPolynomial (Fin D) ℝ, eval 0 P = ∏ i, gaussMoment 0 h.csq (e i) ∧
      ∀ (comp : Bool) (rho : ℝ) (u : Fin D → ℝ),
        HydroMaxwellian.rawMoment { h with compressible := comp, rho := rho, deltaRho := rho - 1 } e u =
          (if comp then rho else 1) * eval u P +
            ((if comp then 0 else rho - 1) - if h.deviationOnly then 1 else 0) * ∏ i, gaussMoment 0 h.csq (e i) := by
    let Q : MvPolynomial (Fin D) ℝ := ∏ i, gaussMoment (X i) (C h.csq) (e i)
    have hQ : ∀ u, eval u Q = ∏ i, gaussMoment (u i) h.csq (e i) := fun u => by
      simp only [Q, map_prod, eval_gaussMoment, eval_X]
    have hr : ∀ (comp : Bool) (rho : ℝ), rawPoly { h with compressible := comp, rho := rho, deltaRho := rho - 1 } e =
        C (if comp then rho else 1) * Q + C (((if comp then 0 else rho - 1) - if h.deviationOnly then 1 else 0) *
          ∏ i, gaussMoment 0 h.csq (e i)) := fun comp rho => by rw [rawPoly]; simp only [hb]; rfl
    refine ⟨cut h.order Q, by rw [(eval_cut h.order 0 0 Q 0).2, hQ]; rfl, fun comp rho u => ?_⟩
    rw [rawMoment_cut { h with compressible := comp, rho := rho, deltaRho := rho - 1 } hc, hr, (eval_cut h.order _ _ Q u).1]
  refine ⟨⟨X none * rename some P + C (-(if h.deviationOnly then 1 else 0) * ∏ i, gaussMoment 0 h.csq (e i)), fun rho u => ?_⟩,
    fun p hp rho u => ?_⟩
  · rw [hP true, map_add, map_mul, eval_X, eval_rename, eval_C]
    have e1 : point rho u ∘ some = u := rfl
    rw [e1]
    simp [point]
  · rw [eval_convert p P (-(if h.deviationOnly then 1 else 0) * ∏ i, gaussMoment 0 h.csq (e i))
      (fun rho u => by rw [hp, hP true]; simp), hP false, hP0]
    simp only [Bool.false_eq_true, if_false]
    ring

end

/-! ### `hydrodynamic_moment_values` -/

section
variable {K : Type} [Field K] [CharZero K] {D : ℕ}

/-- values of the symbols -/
def Sym.value (rho p : K) (u : Fin D → K) : Sym D → K
  | .rho => rho
  | .p => p
  | .u i => u i

omit [CharZero K] in
theorem convert_pressure (i : Fin D) : convert .rho Sym.isU (X .p * X (.u i) : MvPolynomial (Sym D) K) = X .p * X (.u i) ∧
    convert .rho Sym.isU (X .p : MvPolynomial (Sym D) K) = X .p := by
  constructor
  · rw [X, X, monomial_mul, convert_monomial, convertMonomial, if_neg]
    simp
  · rw [X, convert_monomial, convertMonomial, if_neg]
    simp

omit [CharZero K] in
open Classical in
theorem convert_density (q : MvPolynomial (Sym D) K) (rho p : K) (u : Fin D → K)
    (h0 : eval (fun i => if Sym.isU i then 0 else Sym.value rho p u i) q = 0) :
    eval (Sym.value rho p u) (convert .rho Sym.isU (X .rho * q)) = eval (Sym.value rho p u) q := by
  rw [C111_value _ _ (by rintro ⟨i, hi⟩; cases hi), h0]
  ring

omit [CharZero K] in
/-- the values of the moments that are returned -/
theorem hydrodynamic_values (comp : Bool) (rho p : K) (u : Fin D → K) :
    eval (Sym.value rho p u) (hydrodynamicMomentValue comp []) = rho ∧
    (∀ i, eval (Sym.value rho p u) (hydrodynamicMomentValue comp [i]) = (if comp then rho else 1) * u i) ∧
    (∀ i j, eval (Sym.value rho p u) (hydrodynamicMomentValue comp [i, j]) = p * δ i j + (if comp then rho else 1) * (u i * u j)) ∧
    ∀ i j k, eval (Sym.value rho p u) (hydrodynamicMomentValue comp [i, j, k]) = p * (δ i j * u k + δ i k * u j + δ j k * u i) := by
  classical
  have hu : ∀ i : Fin D, Sym.isU (.u i) := fun i => ⟨i, rfl⟩
  have hrho : convert .rho Sym.isU (X .rho : MvPolynomial (Sym D) K) = X .rho := by
    rw [X, convert_monomial, convertMonomial, if_neg]
    rintro ⟨-, i, hi, j, rfl⟩
    simp at hi
  have hlin := fun a b : MvPolynomial (Sym D) K => (C111_linear .rho Sym.isU a b 0).1
  have hite : ∀ (c : Prop) [Decidable c] (q : MvPolynomial (Sym D) K), convert .rho Sym.isU q = q →
      convert .rho Sym.isU (if c then q else 0) = if c then q else 0 := by
    intro c _ q hq
    split_ifs
    · exact hq
    · simp [convert]
  have hite' : ∀ (c : Prop) [Decidable c] (x : Sym D → K) (q : MvPolynomial (Sym D) K),
      eval x (if c then q else 0) = if c then eval x q else 0 := by
    intro c _ x q
    split_ifs <;> simp
  cases comp <;> simp only [hydrodynamicMomentValue, Bool.not_false, Bool.not_true, if_true, Bool.false_eq_true, if_false,
    maxwellianValue]
  · refine ⟨?_, fun i => ?_, fun i j => ?_, fun i j k => ?_⟩
    · rw [hrho, eval_X]
      rfl
    · rw [convert_density _ _ _ _ (by simp [hu]), eval_X, one_mul]
      rfl
    · rw [hlin, map_add, convert_density _ _ _ _ (by simp [hu]), hite _ _ (convert_pressure i).2, hite', δ]
      simp [Sym.value]
    · rw [hlin, hlin, hite _ _ (convert_pressure k).1, hite _ _ (convert_pressure j).1, hite _ _ (convert_pressure i).1]
      simp only [map_add, hite', δ, map_mul, eval_X, Sym.value]
      split_ifs <;> ring
  · refine ⟨by simp [Sym.value], fun i => by simp [Sym.value], fun i j => ?_, fun i j k => ?_⟩
    · simp only [map_add, hite', δ, map_mul, eval_X, Sym.value]
      split_ifs <;> ring
    · simp only [map_add, hite', δ, map_mul, eval_X, Sym.value]
      split_ifs <;> ring

/-- a moment of a list of populations, for the list of directions -/
def populationMoment {K : Type} [Field K] (st : List (List ℤ)) (f : List K) (l : List (Fin (st.headD []).length)) : K :=
  ∑ q : Fin st.length, (l.map fun a => vel st (st.headD []).length q a).prod * f.getD q 0

/-- C111: with `p = rho / 3`, the values for `compressible=True` are the moments up to order three of the compressible
discrete Maxwellian of second order, on every predefined stencil but D3Q7.  For `compressible=False`, those up to order two are
the moments of the incompressible one.  The third moments are not: the value that is returned is too large by the factor
`rho`, because with `c_s ** 2 = p / rho` the density is hidden in `p` -/
theorem C111_hydrodynamic_partial [DecidableEq K] {e} (he : e ∈ Tables.predefined) (o : MaxwellOptions K e.2.2)
    (hw : getWeights e.2.2 = some o.weights) (ho : o.order = some 2) (hd : o.deviationOnly = false) (h7 : e.2.2.length ≠ 7)
    (rho : K) (u : Fin (e.2.2.headD []).length → K) (comp : Bool) (l : List (Fin (e.2.2.headD []).length))
    (hl : l.length ≤ 3) :
    eval (Sym.value rho (rho / 3) u) (hydrodynamicMomentValue comp l) =
      (if comp = false ∧ l.length = 3 then rho else 1) *
        populationMoment e.2.2 (o.populations comp ⟨rho, rho - 1, u⟩) l := by
  obtain ⟨-, h3, h5⟩ := C20_weights_isotropic (K := K) e he o.weights hw
  have h5 := h5 h7
  have hcs : (1 / 3 : K) ≠ 0 := by norm_num
  obtain ⟨v0, v1, v2, v3⟩ := hydrodynamic_values comp rho (rho / 3) u
  have hp : ∀ q : Fin e.2.2.length, (o.populations comp ⟨rho, rho - 1, u⟩).getD q 0 = eqPoly (vel e.2.2 (e.2.2.headD []).length)
      (weightVec e.2.2 o.weights) (1 / 3) (rhoOut comp rho) (rhoIn comp rho) 1 0 u q := fun q => by
    rw [Poiseuille.populations_eq he o hw, hd, ho]
    simp [g2, g3]
  unfold populationMoment
  simp only [hp]
  have hio : rhoOut comp rho * rhoIn comp rho = rho := by cases comp <;> simp [rhoOut, rhoIn]
  match l, hl with
  | [], _ =>
    rw [v0]
    simp only [List.map_nil, List.prod_nil, one_mul]
    rw [eqPoly_m0 h3 hcs, hio]
    simp
  | [i], _ =>
    rw [v1]
    simp only [List.map_cons, List.map_nil, List.prod_cons, List.prod_nil, mul_one]
    rw [eqPoly_m1 h3 hcs _ _ _ _ u i (Or.inl rfl)]
    simp [rhoOut]
  | [i, j], _ =>
    rw [v2]
    simp only [List.map_cons, List.map_nil, List.prod_cons, List.prod_nil, mul_one]
    rw [eqPoly_m2 h3 hcs _ _ _ _ u i j (Or.inr h5)]
    have : rhoOut comp rho * (rhoIn comp rho * (1 / 3) * δ i j + 1 * (u i * u j)) =
        rhoOut comp rho * rhoIn comp rho * (1 / 3) * δ i j + rhoOut comp rho * (u i * u j) := by ring
    rw [this, hio, show (if comp = false ∧ [i, j].length = 3 then rho else 1) = 1 from if_neg (by simp)]
    unfold rhoOut
    ring
  | [i, j, k], _ =>
    rw [v3]
    simp only [List.map_cons, List.map_nil, List.prod_cons, List.prod_nil, mul_one, ← mul_assoc]
    rw [eqPoly_m3 h5 hcs]
    cases comp
    · rw [if_pos (by simp)]
      simp only [rhoOut, Bool.false_eq_true, if_false]
      ring
    · rw [if_neg (by simp)]
      simp only [rhoOut, if_true]
      ring

/-- the disagreement, on each of these stencils: density two and velocity one in direction `i`, the moment of `c_i ^ 3` -/
theorem C111_hydrodynamic_fails {e} (he : e ∈ Tables.predefined) (o : MaxwellOptions ℚ e.2.2)
    (hw : getWeights e.2.2 = some o.weights) (ho : o.order = some 2) (hd : o.deviationOnly = false) (h7 : e.2.2.length ≠ 7)
    (i : Fin (e.2.2.headD []).length) :
    populationMoment e.2.2 (o.populations false ⟨2, 2 - 1, fun a => δ i a⟩) [i, i, i] = 1 ∧
      eval (Sym.value 2 (2 / 3) fun a => δ i a) (hydrodynamicMomentValue false [i, i, i]) = (2 : ℚ) := by
  have h := C111_hydrodynamic_partial he o hw ho hd h7 2 (fun a => δ i a) false [i, i, i] (by simp)
  have v := (hydrodynamic_values (K := ℚ) false 2 (2 / 3) fun a => δ i a).2.2.2 i i i
  have v2 : eval (Sym.value 2 (2 / 3) fun a => δ i a) (hydrodynamicMomentValue false [i, i, i]) = (2 : ℚ) := by
    rw [v]
    simp [δ]
    norm_num
  refine ⟨?_, v2⟩
  rw [v2] at h
  simp at h
  linarith

end

/-! ### Examples -/

/-- the docstring example (`maxwellian_equilibrium.py:237-239`) -/
example : ∀ (rho : ℚ) (u : Fin 2 → ℚ), eval (point rho u) (convert none (fun i => i.isSome)
    (X none + X none * X (some 0) + X none * (X (some 0) * X (some 1)) : MvPolynomial (Option (Fin 2)) ℚ)) =
      rho + u 0 * u 1 + u 0 := by
  intro rho u
  rw [eval_convert _ (1 + X 0 + X 0 * X 1) 0 (fun rho u => by simp [point]; ring)]
  simp
  ring

/-- the hypotheses on the equilibrium are met on D2Q9 -/
example : ∃ (e : String × String × List (List ℤ)) (o : MaxwellOptions ℚ e.2.2), e ∈ Tables.predefined ∧ e.2.2.length = 9 ∧
    getWeights e.2.2 = some o.weights ∧ o.order = some 2 ∧ o.deviationOnly = false := by
  obtain ⟨e, he, h9⟩ : ∃ e ∈ Tables.predefined, e.2.2.length = 9 ∧ (getWeights e.2.2).isSome := by decide +kernel
  exact ⟨e, ⟨[], (getWeights e.2.2).getD [], some 2, false, false, none⟩, he, h9.1, by
    obtain ⟨w, hw⟩ := Option.isSome_iff_exists.1 h9.2
    simp [hw], rfl, rfl⟩

end IncompressibleMoments
end Lbm
