import Verif.Spec.NavierStokes
import Mathlib.Tactic.Ring
import Mathlib.Tactic.LinearCombination
import Mathlib.Tactic.NormNum
import Mathlib.Algebra.Field.Rat
import Mathlib.Algebra.Polynomial.Derivation
import Mathlib.Algebra.BigOperators.Fin
import Mathlib.Algebra.MvPolynomial.Equiv

/-!
# C113: conservation equations and the Navier–Stokes equations
-/

set_option linter.unusedSectionVars false

namespace Lbm
namespace NavierStokesMatch

open MvPolynomial Spec

variable {K μ : Type} [Field K] [DecidableEq μ] [Fintype μ] {D : ℕ}

/-! ### Equations that are linear in the derivatives, with constant coefficients -/

/-- each product is a constant times one derivative -/
def Lin (p : Poly K D μ) : Prop := ∀ m, p.coeff m ≠ 0 → ∃ d, m = Finsupp.single (Sym.diff d) 1

/-- the coefficient of a derivative -/
noncomputable def lc (p : Poly K D μ) (d : Diff D μ) : K := p.coeff (Finsupp.single (Sym.diff d) 1)

theorem coeff_setZero (p : Poly K D μ) (s : Sym D μ) (m : Sym D μ →₀ ℕ) :
    (setZero p s).coeff m = if m s = 0 then p.coeff m else 0 := by
  classical
  unfold setZero
  rw [coeff_sum]
  simp only [coeff_monomial]
  rw [Finset.sum_ite_eq' (p.support.filter fun m => m s = 0) m fun m => p.coeff m]
  by_cases h0 : m s = 0
  · by_cases hp : p.coeff m = 0
    · simp [h0, hp]
    · simp [h0, hp]
  · simp [h0]

theorem single_diff_inj {d d' : Diff D μ} : (Finsupp.single (Sym.diff d) 1 : Sym D μ →₀ ℕ) = Finsupp.single (Sym.diff d') 1 ↔ d = d' := by
  constructor
  · intro h
    have := Finsupp.single_left_injective (one_ne_zero) h
    simpa using this
  · rintro rfl; rfl

theorem single_diff_apply (d d' : Diff D μ) : (Finsupp.single (Sym.diff d) 1 : Sym D μ →₀ ℕ) (Sym.diff d') = if d' = d then 1 else 0 := by
  rw [Finsupp.single_apply]
  by_cases h : d = d'
  · subst h; simp
  · have h' : ¬ d' = d := fun e => h e.symm
    simp [h, h']

theorem lin_setZero {p : Poly K D μ} (hp : Lin p) (d : Diff D μ) : Lin (setZero p (.diff d)) := by
  intro m hm
  rw [coeff_setZero] at hm
  split at hm
  · exact hp m hm
  · exact absurd rfl hm

theorem lc_setZero (p : Poly K D μ) (d d' : Diff D μ) : lc (setZero p (.diff d)) d' = if d' = d then 0 else lc p d' := by
  unfold lc
  rw [coeff_setZero, single_diff_apply]
  by_cases h : d = d'
  · subst h; simp
  · have h' : ¬ d' = d := fun e => h e.symm
    simp [h, h']

theorem coeffOf_lin {p : Poly K D μ} (hp : Lin p) (d : Diff D μ) : coeffOf p (.diff d) = C (lc p d) := by
  classical
  have h1 : p.support.filter (fun m => m (Sym.diff d) = 1) =
      if lc p d = 0 then ∅ else {Finsupp.single (Sym.diff d) 1} := by
    ext m
    rw [Finset.mem_filter, mem_support_iff]
    constructor
    · rintro ⟨h, h1⟩
      obtain ⟨d', rfl⟩ := hp m h
      rw [single_diff_apply] at h1
      have : d = d' := by by_contra hne; rw [if_neg hne] at h1; cases h1
      subst this
      rw [if_neg (show lc p d ≠ 0 from h)]; simp
    · split
      · simp
      · rename_i hne
        simp only [Finset.mem_singleton]
        rintro rfl
        exact ⟨hne, by rw [single_diff_apply]; simp⟩
  unfold coeffOf
  rw [h1]
  split
  · rename_i h; rw [h]; simp
  · simp only [Finset.sum_singleton, Finsupp.erase_single]
    rfl

theorem lin_ext {p q : Poly K D μ} (hp : Lin p) (hq : Lin q) (h : ∀ d, lc p d = lc q d) : p = q := by
  ext m
  by_cases h1 : p.coeff m = 0
  · by_cases h2 : q.coeff m = 0
    · rw [h1, h2]
    · obtain ⟨d, rfl⟩ := hq m h2; exact h d
  · obtain ⟨d, rfl⟩ := hp m h1; exact h d

theorem lin_zero : Lin (0 : Poly K D μ) := fun m h => absurd (coeff_zero m) h

/-- a linear equation is the sum of its terms -/
theorem lin_sum {p : Poly K D μ} (hp : Lin p) : p = ∑ d, C (lc p d) * X (Sym.diff d) := by
  classical
  have e : ∀ m, (∑ d, C (lc p d) * X (Sym.diff d) : Poly K D μ).coeff m =
      ∑ d, if Finsupp.single (Sym.diff d) 1 = m then lc p d else 0 := by
    intro m
    rw [coeff_sum]
    refine Finset.sum_congr rfl fun d _ => ?_
    rw [coeff_C_mul, coeff_X]
    split <;> simp
  ext m
  rw [e]
  by_cases h : ∃ d, m = Finsupp.single (Sym.diff d) 1
  · obtain ⟨d, rfl⟩ := h
    simp only [single_diff_inj]
    rw [Finset.sum_ite_eq']
    simp [lc]
  · rw [Finset.sum_eq_zero fun d _ => if_neg fun hd => h ⟨d, hd.symm⟩]
    by_contra hne
    exact h (hp m hne)

/-! ### The loop over the derivatives -/

theorem collect_spec (l : List (Diff D μ)) (σ : Fin D → Poly K D μ) (p : Poly K D μ) (hp : Lin p)
    (ht : ∀ d ∈ l, d.2 ≠ none) :
    ∃ σ' p', collect l (σ, p) = .ok (σ', p') ∧ Lin p' ∧ (∀ d, lc p' d = if d ∈ l then 0 else lc p d) ∧
      ∀ j, σ' j = σ j + ∑ b, if (b, some j) ∈ l then C (lc p (b, some j)) * X (.base b) else 0 := by
  induction l generalizing σ p with
  | nil => exact ⟨σ, p, rfl, hp, by simp, by simp⟩
  | cons d l ih =>
    obtain ⟨b, t⟩ := d
    rcases t with _ | j
    · exact absurd rfl (ht (b, none) List.mem_cons_self)
    · obtain ⟨σ', p', e, h1, h2, h3⟩ := ih
        (Function.update σ j (σ j + coeffOf p (.diff (b, some j)) * X (.base b))) _ (lin_setZero hp (b, some j))
        fun d hd => ht d (by simp [hd])
      refine ⟨σ', p', e, h1, fun d => ?_, fun j' => ?_⟩
      · rw [h2, lc_setZero]
        by_cases hd : d = (b, some j)
        · simp [hd]
        · simp [hd]
      · rw [h3, Function.update_apply]
        by_cases hj : j' = j
        · subst hj
          rw [if_pos rfl, coeffOf_lin hp, add_assoc]
          congr 1
          have : ∀ b', (if (b', some j') ∈ (b, some j') :: l then C (lc p (b', some j')) * X (.base b') else 0 : Poly K D μ) =
              (if b' = b then C (lc p (b', some j')) * X (.base b') else 0) +
              if (b', some j') ∈ l then C (lc (setZero p (.diff (b, some j'))) (b', some j')) * X (.base b') else 0 := by
            intro b'
            rw [lc_setZero]
            by_cases hb : b' = b
            · subst hb; simp
            · simp [hb]
          simp only [this, Finset.sum_add_distrib, Finset.sum_ite_eq', Finset.mem_univ, if_true]
        · rw [if_neg hj]
          congr 1
          refine Finset.sum_congr rfl fun b' _ => ?_
          have hne : ((b', some j') : Diff D μ) ≠ (b, some j) := by
            intro h; simp only [Prod.mk.injEq, Option.some.injEq] at h; exact hj h.2
          rw [lc_setZero, if_neg hne]
          simp [hj]

theorem collect_time (l : List (Diff D μ)) (st : (Fin D → Poly K D μ) × Poly K D μ) (h : ∃ d ∈ l, d.2 = none) :
    collect l st = .error .indexError := by
  induction l generalizing st with
  | nil => simp at h
  | cons d l ih =>
    obtain ⟨b, t⟩ := d
    rcases t with _ | j
    · rfl
    · obtain ⟨σ, p⟩ := st
      refine ih _ ?_
      obtain ⟨d, hd, hn⟩ := h
      simp only [List.mem_cons] at hd
      rcases hd with rfl | hd
      · cases hn
      · exact ⟨d, hd, hn⟩

theorem mem_diffs {p : Poly K D μ} (hp : Lin p) (d : Diff D μ) : d ∈ diffs p ↔ lc p d ≠ 0 := by
  unfold diffs
  simp only [Finset.mem_filter, Finset.mem_univ, true_and, mem_support_iff]
  constructor
  · rintro ⟨m, hm, h⟩
    obtain ⟨d', rfl⟩ := hp m hm
    rw [single_diff_apply] at h
    have : d = d' := by by_contra hne; simp [hne] at h
    subst this
    exact hm
  · intro h
    exact ⟨_, h, by rw [single_diff_apply]; simp⟩

/-! ### The pressure -/

theorem mem_coefficientArgSet {p : Poly K D μ} (hp : Lin p) (i : Fin D) (x : PressureTerm K D μ) :
    x ∈ coefficientArgSet p i ↔ x.1.2 = 0 ∧ (Sym.base x.2 : Sym D μ).hasMoment = false ∧ x.1.1 = lc p (x.2, some i) ∧ x.1.1 ≠ 0 := by
  classical
  obtain ⟨⟨c, m'⟩, b⟩ := x
  have cand : ∀ d : Diff D μ, candidates i (Finsupp.single (Sym.diff d) 1) = if d.2 = some i then {d.1} else ∅ := by
    intro d
    ext b'
    unfold candidates
    rw [Finset.mem_filter, Finsupp.mem_support_iff, single_diff_apply]
    obtain ⟨b0, t0⟩ := d
    by_cases ht : t0 = some i
    · subst ht; simp
    · have : ¬ ((b', some i) : Diff D μ) = (b0, t0) := by
        intro h; simp only [Prod.mk.injEq] at h; exact ht h.2.symm
      simp [this, ht]
  have hm : ∀ (b : Base D μ) (t), (Sym.diff (b, t) : Sym D μ).hasMoment = (Sym.base b : Sym D μ).hasMoment := by
    intro b t; cases b <;> rfl
  unfold coefficientArgSet
  rw [Finset.mem_biUnion]
  constructor
  · rintro ⟨m, hmem, him⟩
    rw [Finset.mem_filter, mem_support_iff] at hmem
    obtain ⟨hc, hno, hcard⟩ := hmem
    obtain ⟨⟨b0, t0⟩, rfl⟩ := hp m hc
    rw [cand] at hcard him
    by_cases ht : t0 = some i
    · subst ht
      simp only [if_true, Finset.image_singleton, Finset.mem_singleton, Prod.mk.injEq] at him
      obtain ⟨⟨rfl, rfl⟩, rfl⟩ := him
      refine ⟨by simp, ?_, rfl, hc⟩
      have := hno (Sym.diff (b, some i)) (by rw [Finsupp.mem_support_iff, single_diff_apply]; simp)
      rwa [hm] at this
    · simp [ht] at hcard
  · rintro ⟨h1, h2, h3, h4⟩
    simp only at h1 h2 h3 h4
    subst h1
    refine ⟨Finsupp.single (Sym.diff (b, some i)) 1, ?_, ?_⟩
    · rw [Finset.mem_filter, mem_support_iff]
      refine ⟨by rw [h3] at h4; exact h4, ?_, by rw [cand]; simp⟩
      intro s hs
      have := Finsupp.support_single_subset hs
      simp only [Finset.mem_singleton] at this
      subst this
      rw [hm]; exact h2
    · rw [cand]
      simp only [if_true, Finset.image_singleton, Finset.mem_singleton, Prod.mk.injEq]
      exact ⟨⟨h3, by simp⟩, trivial⟩

theorem mem_pressureTerms {p : Fin (D + 1) → Poly K (D + 1) μ} (hp : ∀ i, Lin (p i)) (x : PressureTerm K (D + 1) μ) :
    x ∈ pressureTerms p ↔ x.1.2 = 0 ∧ (Sym.base x.2 : Sym (D + 1) μ).hasMoment = false ∧ x.1.1 ≠ 0 ∧
      ∀ i, x.1.1 = lc (p i) (x.2, some i) := by
  classical
  unfold pressureTerms
  rw [Finset.mem_filter]
  simp only [mem_coefficientArgSet (hp _)]
  constructor
  · rintro ⟨h, h'⟩
    exact ⟨h.1, h.2.1, h.2.2.2, fun i => (h' i).2.2.1⟩
  · rintro ⟨h1, h2, h3, h4⟩
    exact ⟨⟨h1, h2, h4 0, h3⟩, fun i => ⟨h1, h2, h4 i, h3⟩⟩

theorem lin_add {p q : Poly K D μ} (hp : Lin p) (hq : Lin q) : Lin (p + q) := by
  intro m hm
  rw [coeff_add] at hm
  by_cases h : p.coeff m = 0
  · exact hq m fun h' => hm (by rw [h, h', add_zero])
  · exact hp m h

theorem lin_neg {p : Poly K D μ} (hp : Lin p) : Lin (-p) := fun m hm => hp m fun h => hm (by rw [coeff_neg, h, neg_zero])

theorem lin_fsum {ι : Type} (s : Finset ι) (f : ι → Poly K D μ) (h : ∀ x ∈ s, Lin (f x)) : Lin (∑ x ∈ s, f x) := by
  classical
  induction s using Finset.induction_on with
  | empty => exact lin_zero
  | insert a s ha ih =>
    rw [Finset.sum_insert ha]
    exact lin_add (h a (by simp)) (ih fun x hx => h x (by simp [hx]))

theorem coeff_term (c : K) (d : Diff D μ) (m : Sym D μ →₀ ℕ) :
    (C c * X (Sym.diff d) : Poly K D μ).coeff m = if m = Finsupp.single (Sym.diff d) 1 then c else 0 := by
  classical
  rw [coeff_C_mul, coeff_X]
  by_cases h : Finsupp.single (Sym.diff d) 1 = m
  · rw [if_pos h, if_pos h.symm, mul_one]
  · rw [if_neg h, if_neg fun e => h e.symm, mul_zero]

theorem lin_term (c : K) (d : Diff D μ) : Lin (C c * X (Sym.diff d) : Poly K D μ) := by
  intro m hm
  rw [coeff_term] at hm
  by_cases h : m = Finsupp.single (Sym.diff d) 1
  · exact ⟨d, h⟩
  · rw [if_neg h] at hm; exact absurd rfl hm

theorem lc_term (c : K) (d d' : Diff D μ) : lc (C c * X (Sym.diff d) : Poly K D μ) d' = if d' = d then c else 0 := by
  unfold lc
  rw [coeff_term]
  simp only [single_diff_inj]

theorem lc_add (p q : Poly K D μ) (d : Diff D μ) : lc (p + q) d = lc p d + lc q d := coeff_add _ _ _

theorem lc_sub (p q : Poly K D μ) (d : Diff D μ) : lc (p - q) d = lc p d - lc q d := by
  unfold lc; rw [coeff_sub]

theorem lc_fsum {ι : Type} (s : Finset ι) (f : ι → Poly K D μ) (d : Diff D μ) : lc (∑ x ∈ s, f x) d = ∑ x ∈ s, lc (f x) d :=
  coeff_sum _ _ _

theorem times_eq (x : PressureTerm K D μ) (h : x.1.2 = 0) (y : Poly K D μ) : x.times y = C x.1.1 * y := by
  unfold PressureTerm.times
  rw [h]; rfl

theorem lin_withoutPressure {p : Fin (D + 1) → Poly K (D + 1) μ} (hp : ∀ i, Lin (p i)) (i : Fin (D + 1)) :
    Lin (withoutPressure p i) := by
  unfold withoutPressure
  rw [sub_eq_add_neg]
  refine lin_add (hp i) (lin_neg (lin_fsum _ _ fun x hx => ?_))
  rw [times_eq x ((mem_pressureTerms hp x).1 hx).1]
  exact lin_term _ _

theorem lc_withoutPressure {p : Fin (D + 1) → Poly K (D + 1) μ} (hp : ∀ i, Lin (p i)) (i : Fin (D + 1)) (d : Diff (D + 1) μ) :
    lc (withoutPressure p i) d = lc (p i) d - ∑ x ∈ pressureTerms p, if d = (x.2, some i) then x.1.1 else 0 := by
  unfold withoutPressure
  rw [lc_sub, lc_fsum]
  congr 1
  refine Finset.sum_congr rfl fun x hx => ?_
  rw [times_eq x ((mem_pressureTerms hp x).1 hx).1, lc_term]

theorem lc_withoutPressure_time {p : Fin (D + 1) → Poly K (D + 1) μ} (hp : ∀ i, Lin (p i)) (i : Fin (D + 1)) (b : Base (D + 1) μ) :
    lc (withoutPressure p i) (b, none) = lc (p i) (b, none) := by
  rw [lc_withoutPressure hp, Finset.sum_eq_zero fun x _ => if_neg (by simp), sub_zero]

/-! ### The function -/

/-- the stress that is returned -/
noncomputable def stress (p : Fin (D + 1) → Poly K (D + 1) μ) (i j : Fin (D + 1)) : Poly K (D + 1) μ :=
  ∑ b, C (lc (withoutPressure p i) (b, some j)) * X (.base b)

theorem rows_spec (enum : Finset (Diff (D + 1) μ) → List (Diff (D + 1) μ)) (he : ∀ s d, d ∈ enum s ↔ d ∈ s)
    {p : Fin (D + 1) → Poly K (D + 1) μ} (hp : ∀ i, Lin (p i)) (i : Fin (D + 1)) :
    ((∀ b, lc (p i) (b, none) = 0) → rows enum p i = .ok (stress p i, 0)) ∧
    ((∃ b, lc (p i) (b, none) ≠ 0) → rows enum p i = .error .indexError) := by
  have hw := lin_withoutPressure hp i
  have hmem : ∀ d, d ∈ enum (diffs (withoutPressure p i)) ↔ lc (withoutPressure p i) d ≠ 0 := fun d => by
    rw [he, mem_diffs hw]
  refine ⟨fun h => ?_, ?_⟩
  · obtain ⟨σ', p', e, h1, h2, h3⟩ := collect_spec (enum (diffs (withoutPressure p i))) (fun _ => 0) _ hw (by
      rintro ⟨b, t⟩ hd rfl
      rw [hmem, lc_withoutPressure_time hp] at hd
      exact hd (h b))
    unfold rows
    rw [e]
    congr 2
    · funext j
      rw [h3, zero_add]
      unfold stress
      refine Finset.sum_congr rfl fun b _ => ?_
      by_cases hb : lc (withoutPressure p i) (b, some j) = 0
      · rw [hb]; simp
      · rw [if_pos ((hmem _).2 hb)]
    · refine lin_ext h1 lin_zero fun d => ?_
      rw [h2]
      by_cases hd : lc (withoutPressure p i) d = 0
      · rw [hd]; simp [lc]
      · rw [if_pos ((hmem d).2 hd)]; simp [lc]
  · rintro ⟨b, hb⟩
    exact collect_time _ _ ⟨(b, none), (hmem _).2 (by rw [lc_withoutPressure_time hp]; exact hb), rfl⟩

/-- C113. When does the function return, and what, if the difference to the convective part has constant coefficients: the
continuity equation must be the reference, the time derivatives must cancel, and in each momentum equation at least two terms must
be left. -/
theorem C113_result (enum : Finset (Diff (D + 1) μ) → List (Diff (D + 1) μ)) (he : ∀ s d, d ∈ enum s ↔ d ∈ s)
    (cont : Poly K (D + 1) μ) (moms p : Fin (D + 1) → Poly K (D + 1) μ) (hp : ∀ i, Lin (p i))
    (hd : ∀ i, moms i = refMomentum (isCompressible cont) i + p i) (r : Matched K (D + 1) μ) :
    matchNavierStokes enum cont moms = .ok r ↔
      (cont = refContinuity (isCompressible cont) ∧ (∀ i, 2 ≤ (p i).support.card) ∧ ∀ i b, lc (p i) (b, none) = 0) ∧
      r = ⟨isCompressible cont, pressureTerms p, stress p⟩ := by
  have hpe : (fun i => moms i - refMomentum (isCompressible cont) i) = p := by
    funext i; rw [hd]; ring
  unfold matchNavierStokes
  rw [hpe]
  unfold matchWith
  by_cases h1 : ∃ i, (p i).support.card < 2
  · rw [if_pos h1]
    obtain ⟨i, hi⟩ := h1
    refine ⟨(fun h => nomatch h), ?_⟩
    rintro ⟨⟨-, h, -⟩, -⟩
    have := h i; omega
  · rw [if_neg h1]
    push Not at h1
    by_cases h2 : ∀ i b, lc (p i) (b, none) = 0
    · have hr : ∀ i, rows enum p i = .ok (stress p i, 0) := fun i => (rows_spec enum he hp i).1 (h2 i)
      rw [if_neg (by rintro ⟨i, e, hh⟩; rw [hr] at hh; cases hh)]
      simp only [hr, implies_true, and_true]
      by_cases h3 : cont = refContinuity (isCompressible cont)
      · rw [if_pos ⟨by rw [← h3, sub_self], fun i => by rw [hr]⟩]
        constructor
        · intro h
          exact ⟨⟨h3, h1, h2⟩, (Except.ok.inj h).symm⟩
        · rintro ⟨-, rfl⟩; rfl
      · rw [if_neg (fun h => h3 (sub_eq_zero.1 h.1).symm)]
        exact ⟨(fun h => nomatch h), fun h => absurd h.1.1 h3⟩
    · have hx : ∃ i, ∃ e, rows enum p i = .error e := by
        push Not at h2
        obtain ⟨i, b, hb⟩ := h2
        exact ⟨i, _, (rows_spec enum he hp i).2 ⟨b, hb⟩⟩
      rw [if_pos hx]
      exact ⟨(fun h => nomatch h), fun h => absurd h.1.2.2 h2⟩

/-! ### Values -/

section
variable {A : Type} [CommRing A] [Algebra K A]

theorem eval_diffProduct (v : Fields K A D μ) (t : Option (Fin D)) (l : List (Base D μ)) :
    v.eval (diffProduct t l : Poly K D μ) = v.d t ((l.map v.base).prod) := by
  induction l with
  | nil => simp [diffProduct, Fields.eval]
  | cons b l ih =>
    have hl : v.eval ((l.map fun b => X (.base b)).prod : Poly K D μ) = (l.map v.base).prod := by
      unfold Fields.eval
      rw [map_list_prod, List.map_map]
      congr 1
      refine List.map_congr_left fun b _ => ?_
      simp
    have e1 : v.eval (diffProduct t (b :: l) : Poly K D μ) =
        v.d t (v.base b) * v.eval ((l.map fun b => X (.base b)).prod : Poly K D μ) +
          v.base b * v.eval (diffProduct t l : Poly K D μ) := by
      simp [Fields.eval, diffProduct]
    rw [e1, hl, ih, List.map_cons, List.prod_cons, Derivation.leibniz]
    simp only [smul_eq_mul]
    ring

theorem eval_term (v : Fields K A D μ) (c : K) (s : Sym D μ) : v.eval (C c * X s : Poly K D μ) = c • v.eval (X s : Poly K D μ) := by
  unfold Fields.eval
  rw [map_mul, algHom_C, Algebra.smul_def]

theorem eval_base (v : Fields K A D μ) (b : Base D μ) : v.eval (X (.base b) : Poly K D μ) = v.base b := by simp [Fields.eval]

theorem eval_diff (v : Fields K A D μ) (d : Diff D μ) : v.eval (X (.diff d) : Poly K D μ) = v.d d.2 (v.base d.1) := by
  simp [Fields.eval]

theorem eval_add (v : Fields K A D μ) (p q : Poly K D μ) : v.eval (p + q) = v.eval p + v.eval q := map_add _ _ _

theorem eval_fsum (v : Fields K A D μ) {ι : Type} (s : Finset ι) (f : ι → Poly K D μ) :
    v.eval (∑ x ∈ s, f x) = ∑ x ∈ s, v.eval (f x) := map_sum _ _ _

theorem factor_prod (v : Fields K A D μ) (c : Bool) (l : List (Base D μ)) :
    ((factor c ++ l).map v.base).prod = (if c then v.rho else 1) * (l.map v.base).prod := by
  cases c <;> simp [factor, Fields.base]

/-- C113. The Navier–Stokes equations: if the function returns and the difference to the convective part has constant coefficients,
the conservation equations are the equations of continuity and of momentum with the returned pressure and stress, for all fields
and derivatives. -/
theorem C113_navier_stokes (enum : Finset (Diff (D + 1) μ) → List (Diff (D + 1) μ)) (he : ∀ s d, d ∈ enum s ↔ d ∈ s)
    (cont : Poly K (D + 1) μ) (moms p : Fin (D + 1) → Poly K (D + 1) μ) (hp : ∀ i, Lin (p i))
    (hd : ∀ i, moms i = refMomentum (isCompressible cont) i + p i) (r : Matched K (D + 1) μ)
    (hr : matchNavierStokes enum cont moms = .ok r) (v : Fields K A (D + 1) μ) :
    v.eval cont = v.continuity r.compressible ∧
    ∀ i, v.eval (moms i) =
      v.momentum r.compressible (∑ x ∈ r.pressure, v.eval (x.times (X (.base x.2)))) (fun i j => v.eval (r.sigma i j)) i := by
  obtain ⟨⟨h1, h2, h3⟩, rfl⟩ := (C113_result enum he cont moms p hp hd r).1 hr
  refine ⟨?_, fun i => ?_⟩
  · refine (congrArg v.eval h1).trans ?_
    show v.eval (refContinuity (isCompressible cont)) = _
    unfold refContinuity Fields.continuity
    rw [eval_add, eval_fsum, eval_diff]
    congr 1
    · refine Finset.sum_congr rfl fun i _ => ?_
      rw [eval_diffProduct, factor_prod]
      simp [Fields.base]
  · rw [hd, eval_add]
    unfold refMomentum Fields.momentum
    rw [eval_add, eval_fsum]
    simp only [eval_diffProduct, factor_prod, List.map_cons, List.map_nil, List.prod_cons, List.prod_nil, mul_one]
    rw [add_assoc (_ + _) (v.d (some i) _)]
    congr 1
    have split : p i = withoutPressure p i + ∑ x ∈ pressureTerms p, x.times (X (.diff (x.2, some i))) := by
      unfold withoutPressure; ring
    rw [split, eval_add, add_comm]
    congr 1
    · rw [eval_fsum, map_sum]
      refine Finset.sum_congr rfl fun x hx => ?_
      have h0 := ((mem_pressureTerms hp x).1 hx).1
      rw [times_eq x h0, times_eq x h0, eval_term, eval_term, eval_diff, eval_base, Derivation.map_smul]
    · conv_lhs => rw [lin_sum (lin_withoutPressure hp i)]
      rw [eval_fsum, Fintype.sum_prod_type]
      simp only [eval_term, eval_diff, Fintype.sum_option, lc_withoutPressure_time hp, h3, zero_smul, zero_add]
      rw [Finset.sum_comm]
      refine Finset.sum_congr rfl fun j _ => ?_
      unfold stress
      rw [eval_fsum, map_sum]
      refine Finset.sum_congr rfl fun b _ => ?_
      rw [eval_term, eval_base, Derivation.map_smul]

end

/-! ### The equations of the package -/

theorem coeff_XX (a b : Sym D μ) (m : Sym D μ →₀ ℕ) :
    (X a * X b : Poly K D μ).coeff m = if Finsupp.single a 1 + Finsupp.single b 1 = m then 1 else 0 := by
  classical
  have : (X a * X b : Poly K D μ) = monomial (Finsupp.single a 1 + Finsupp.single b 1) 1 := by
    simp [X, monomial_mul]
  rw [this, coeff_monomial]

theorem refContinuity_true : (refContinuity true : Poly K D μ) =
    X (.diff (.rho, none)) + ∑ i, (X (.diff (.rho, some i)) * X (.base (.u i)) + X (.base .rho) * X (.diff (.u i, some i))) := by
  simp [refContinuity, factor, diffProduct]

theorem refContinuity_false : (refContinuity false : Poly K D μ) =
    X (.diff (.rho, none)) + ∑ i, X (.diff (.u i, some i)) := by
  simp [refContinuity, factor, diffProduct]

/-- C113. The function sees whether the continuity equation is compressible. -/
theorem C113_compressible (c : Bool) : isCompressible (refContinuity c : Poly K (D + 1) μ) = c := by
  classical
  cases c
  · unfold isCompressible
    rw [decide_eq_false_iff_not]
    rintro ⟨h, -⟩
    rw [refContinuity_false, coeff_add, coeff_X, if_neg, coeff_sum, Finset.sum_eq_zero, add_zero] at h
    · exact zero_ne_one h
    · intro i _
      rw [coeff_X, if_neg]
      intro h'
      have := DFunLike.congr_fun h' (Sym.base (.u 0))
      simp at this
    · intro h'
      have := DFunLike.congr_fun h' (Sym.base (.u 0))
      simp at this
  · unfold isCompressible
    rw [decide_eq_true_iff]
    have k1 : (refContinuity true : Poly K (D + 1) μ).coeff
        (Finsupp.single (.base (.u 0)) 1 + Finsupp.single (.diff (.rho, some 0)) 1) = 1 := by
      rw [refContinuity_true, coeff_add, coeff_X, if_neg, coeff_sum, zero_add, Finset.sum_eq_single 0]
      · rw [coeff_add, coeff_XX, coeff_XX, if_pos (add_comm _ _), if_neg, add_zero]
        intro h'
        have := DFunLike.congr_fun h' (Sym.base .rho)
        simp at this
      · intro i _ hi
        rw [coeff_add, coeff_XX, coeff_XX, if_neg, if_neg, add_zero]
        · intro h'
          have := DFunLike.congr_fun h' (Sym.base .rho)
          simp at this
        · intro h'
          have := DFunLike.congr_fun h' (Sym.base (.u 0))
          simp [hi] at this
      · simp
      · intro h'
        have := DFunLike.congr_fun h' (Sym.base (.u 0))
        simp at this
    have k2 : (refContinuity true : Poly K (D + 1) μ).coeff (Finsupp.single (.diff (.rho, none)) 1) = 1 := by
      rw [refContinuity_true, coeff_add, coeff_X, if_pos rfl, coeff_sum, Finset.sum_eq_zero, add_zero]
      intro i _
      rw [coeff_add, coeff_XX, coeff_XX, if_neg, if_neg, add_zero]
      · intro h'
        have := DFunLike.congr_fun h' (Sym.base .rho)
        simp at this
      · intro h'
        have := DFunLike.congr_fun h' (Sym.base (.u i))
        simp at this
    refine ⟨k1, ?_⟩
    refine Finset.one_lt_card.2 ⟨_, mem_support_iff.2 (by rw [k1]; exact one_ne_zero), _,
      mem_support_iff.2 (by rw [k2]; exact one_ne_zero), fun h' => ?_⟩
    have := DFunLike.congr_fun h' (Sym.base (.u 0))
    simp at this

/-- the momentum equations the analysis makes: convection, a pressure proportional to the density, derivatives of moments -/
noncomputable def momentumEquation (c : Bool) (cs : K) (κ : Fin D → Fin D → μ → K) (i : Fin D) : Poly K D μ :=
  refMomentum c i + (C cs * X (.diff (.rho, some i)) + ∑ j, ∑ m, C (κ i j m) * X (.diff (.mom m, some j)))

/-- C113. Pressure and stress of the equations of the package: the pressure is `cs * rho` and the stress consists of the moments. -/
theorem C113_pressure_stress (enum : Finset (Diff (D + 1) μ) → List (Diff (D + 1) μ)) (he : ∀ s d, d ∈ enum s ↔ d ∈ s) (c : Bool)
    (cs : K) (hcs : cs ≠ 0) (κ : Fin (D + 1) → Fin (D + 1) → μ → K) (hκ : ∀ i, ∃ j m, κ i j m ≠ 0) :
    matchNavierStokes enum (refContinuity c) (momentumEquation c cs κ) =
      .ok ⟨c, {((cs, 0), .rho)}, fun i j => ∑ m, C (κ i j m) * X (.base (.mom m))⟩ := by
  classical
  obtain ⟨p, hpd⟩ : ∃ p : Fin (D + 1) → Poly K (D + 1) μ, p = fun i =>
    C cs * X (.diff (.rho, some i)) + ∑ j, ∑ m, C (κ i j m) * X (.diff (.mom m, some j)) := ⟨_, rfl⟩
  have hp : ∀ i, Lin (p i) := fun i => by
    rw [hpd]
    exact lin_add (lin_term _ _) (lin_fsum _ _ fun j _ => lin_fsum _ _ fun m _ => lin_term _ _)
  have hl : ∀ i d, lc (p i) d = (if d = (.rho, some i) then cs else 0) +
      ∑ j, ∑ m, if d = (.mom m, some j) then κ i j m else 0 := by
    intro i d
    rw [hpd]
    simp only [lc_add, lc_fsum, lc_term]
  have l1 : ∀ i t, lc (p i) (.rho, t) = if t = some i then cs else 0 := by
    intro i t; rw [hl]; simp
  have l2 : ∀ i k t, lc (p i) (.u k, t) = 0 := by
    intro i k t; rw [hl]; simp
  have l3 : ∀ i m j, lc (p i) (.mom m, some j) = κ i j m := by
    intro i m j
    rw [hl]
    rw [Finset.sum_eq_single j, Finset.sum_eq_single m]
    · simp
    · intro m' _ hm; rw [if_neg]; simp only [Prod.mk.injEq, Base.mom.injEq]; exact fun h => hm h.1.symm
    · simp
    · intro j' _ hj
      exact Finset.sum_eq_zero fun m' _ => if_neg (by simp only [Prod.mk.injEq, Option.some.injEq]; exact fun h => hj h.2.symm)
    · simp
  have l4 : ∀ i b, lc (p i) (b, none) = 0 := by
    intro i b; rw [hl]; simp
  have hc : isCompressible (refContinuity c : Poly K (D + 1) μ) = c := C113_compressible c
  have hpress : pressureTerms p = {((cs, 0), .rho)} := by
    ext x
    rw [mem_pressureTerms hp, Finset.mem_singleton]
    obtain ⟨⟨k, m⟩, b⟩ := x
    constructor
    · rintro ⟨h1, h2, h3, h4⟩
      cases b with
      | rho =>
        have := h4 0
        simp only [l1, if_true] at this
        simp only at h1
        rw [h1, this]
      | u j => exact absurd ((h4 0).trans (l2 0 j _)) h3
      | mom m => simp [Sym.hasMoment] at h2
    · intro h
      simp only [Prod.mk.injEq] at h
      obtain ⟨⟨rfl, rfl⟩, rfl⟩ := h
      exact ⟨rfl, rfl, hcs, fun i => by simp [l1]⟩
  refine (C113_result enum he _ _ p hp (fun i => by rw [hc, hpd]; rfl) _).2 ⟨⟨by rw [hc], fun i => ?_, l4⟩, ?_⟩
  · obtain ⟨j, m, hne⟩ := hκ i
    refine Finset.one_lt_card.2 ⟨Finsupp.single (.diff (.rho, some i)) 1, mem_support_iff.2 ?_,
      Finsupp.single (.diff (.mom m, some j)) 1, mem_support_iff.2 ?_, fun h => ?_⟩
    · show lc (p i) (.rho, some i) ≠ 0
      rw [l1, if_pos rfl]; exact hcs
    · show lc (p i) (.mom m, some j) ≠ 0
      rw [l3]; exact hne
    · have := single_diff_inj.1 h
      simp at this
  · rw [hc, hpress]
    congr 1
    funext i j
    unfold stress
    have hw : ∀ b, lc (withoutPressure p i) (b, some j) = match b with
        | .mom m => κ i j m
        | _ => 0 := by
      intro b
      rw [lc_withoutPressure hp, hpress, Finset.sum_singleton]
      cases b with
      | rho => rw [l1]; by_cases h : j = i <;> simp [h]
      | u k => rw [l2]; simp
      | mom m => rw [l3]; simp
    simp only [hw]
    symm
    have hinj : Function.Injective (Base.mom : μ → Base (D + 1) μ) := fun a b h => by simpa using h
    rw [← Finset.sum_subset (Finset.subset_univ (Finset.univ.image (Base.mom : μ → Base (D + 1) μ)))]
    · rw [Finset.sum_image fun a _ b _ h => hinj h]
    · intro b _ hb
      cases b with
      | mom m => exact absurd (Finset.mem_image_of_mem _ (Finset.mem_univ m)) hb
      | rho => simp
      | u k => simp

/-- not vacuous: two dimensions, one moment -/
example : ∃ enum : Finset (Diff 2 Unit) → List (Diff 2 Unit), (∀ s d, d ∈ enum s ↔ d ∈ s) ∧
    matchNavierStokes (K := ℚ) enum (refContinuity true) (momentumEquation true (1 / 3) fun i j _ => if i = j then 1 else 2) =
      .ok ⟨true, {((1 / 3, 0), .rho)}, fun i j => ∑ _m : Unit, C (if i = j then 1 else 2) * X (.base (.mom ()))⟩ :=
  ⟨Finset.toList, fun s d => Finset.mem_toList,
    C113_pressure_stress _ (fun s d => Finset.mem_toList) true (1 / 3) (by norm_num) _ fun i => ⟨i, (), by simp⟩⟩

/-! ### Where the function fails -/

/-- C113. Without a stress the function fails: the assertion that each momentum equation has at least two terms besides convection. -/
theorem C113_inviscid_rejected (enum : Finset (Diff (D + 1) μ) → List (Diff (D + 1) μ)) (c : Bool) (cs : K) :
    matchNavierStokes enum (refContinuity c) (fun i => refMomentum c i + C cs * X (.diff (.rho, some i)) : Fin (D + 1) → Poly K (D + 1) μ) =
      .error .assertion := by
  classical
  unfold matchNavierStokes matchWith
  rw [if_pos]
  refine ⟨0, ?_⟩
  rw [C113_compressible]
  show (refMomentum c 0 + C cs * X (Sym.diff (Base.rho, some 0)) - refMomentum c 0 : Poly K (D + 1) μ).support.card < 2
  rw [add_sub_cancel_left]
  refine lt_of_le_of_lt (Finset.card_le_card (t := {Finsupp.single (Sym.diff (.rho, some 0)) 1}) fun m hm => ?_) (by simp)
  rw [mem_support_iff, coeff_term] at hm
  by_cases h : m = Finsupp.single (Sym.diff (.rho, some 0)) 1
  · simp [h]
  · rw [if_neg h] at hm; exact absurd rfl hm

/-- C113. A time derivative that is left is an index error, not a failed match. -/
theorem C113_time_derivative (enum : Finset (Diff (D + 1) μ) → List (Diff (D + 1) μ)) (he : ∀ s d, d ∈ enum s ↔ d ∈ s)
    (cont : Poly K (D + 1) μ) (moms p : Fin (D + 1) → Poly K (D + 1) μ) (hp : ∀ i, Lin (p i))
    (hd : ∀ i, moms i = refMomentum (isCompressible cont) i + p i) (h2 : ∀ i, 2 ≤ (p i).support.card) (i : Fin (D + 1))
    (b : Base (D + 1) μ) (hb : lc (p i) (b, none) ≠ 0) :
    matchNavierStokes enum cont moms = .error .indexError := by
  have hpe : (fun i => moms i - refMomentum (isCompressible cont) i) = p := by
    funext i; rw [hd]; ring
  unfold matchNavierStokes
  rw [hpe]
  unfold matchWith
  rw [if_neg (by push Not; exact h2), if_pos ⟨i, _, (rows_spec enum he hp i).2 ⟨b, hb⟩⟩]

theorem mem_argSet (p : Poly K D μ) (i : Fin D) (x : PressureTerm K D μ) : x ∈ coefficientArgSet p i ↔
    ∃ m ∈ p.support, ((∀ s ∈ m.support, s.hasMoment = false) ∧ (candidates i m).card = 1) ∧
      ∃ b ∈ candidates i m, ((p.coeff m, m - Finsupp.single (.diff (b, some i)) 1), b) = x := by
  unfold coefficientArgSet
  simp only [Finset.mem_biUnion, Finset.mem_filter, Finset.mem_image, and_assoc]

theorem mem_pressure (p : Fin (D + 1) → Poly K (D + 1) μ) (x : PressureTerm K (D + 1) μ) :
    x ∈ pressureTerms p ↔ ∀ i, x ∈ coefficientArgSet (p i) i := by
  classical
  unfold pressureTerms
  rw [Finset.mem_filter]
  exact ⟨fun h => h.2, fun h => ⟨h 0, h⟩⟩

/-- the equation `u_0 * Diff(rho, 0) + Diff(rho, 0)` -/
noncomputable def varying : Poly ℚ 1 Unit := X (.base (.u 0)) * X (.diff (.rho, some 0)) + X (.diff (.rho, some 0))

/-- one-dimensional fields: density and velocity are the coordinate -/
noncomputable def line : Fields ℚ (Polynomial ℚ) 1 Unit where
  rho := Polynomial.X
  u := fun _ => Polynomial.X
  mom := fun _ => 0
  d := fun _ => Polynomial.derivative'

/-- C113. Coefficients that are not constant: the function returns although the equation is not the momentum equation with the
returned pressure and stress. -/
theorem C113_coefficients_wrong (enum : Finset (Diff 1 Unit) → List (Diff 1 Unit)) (he : ∀ s d, d ∈ enum s ↔ d ∈ s) :
    ∃ r, matchNavierStokes enum (refContinuity true) (fun i => refMomentum true i + varying) = .ok r ∧
      line.eval (refMomentum true 0 + varying) ≠
        line.momentum r.compressible (∑ x ∈ r.pressure, line.eval (x.times (X (.base x.2)))) (fun i j => line.eval (r.sigma i j)) 0 := by
  classical
  set d : Sym 1 Unit := .diff (.rho, some 0) with hdd
  set m1 : Sym 1 Unit →₀ ℕ := Finsupp.single (.base (.u 0)) 1 + Finsupp.single d 1 with hm1
  set m2 : Sym 1 Unit →₀ ℕ := Finsupp.single d 1 with hm2
  have hne : m1 ≠ m2 := by
    intro h
    have := DFunLike.congr_fun h (Sym.base (.u 0))
    simp [hm1, hm2, hdd] at this
  have hco : ∀ m, varying.coeff m = (if m1 = m then 1 else 0) + if m2 = m then 1 else 0 := by
    intro m
    unfold varying
    rw [coeff_add, coeff_XX, coeff_X]
  have c1 : varying.coeff m1 = 1 := by rw [hco, if_pos rfl, if_neg (Ne.symm hne), add_zero]
  have c2 : varying.coeff m2 = 1 := by rw [hco, if_neg hne, if_pos rfl, zero_add]
  have hsupp : varying.support = {m1, m2} := by
    ext m
    rw [mem_support_iff, hco, Finset.mem_insert, Finset.mem_singleton]
    by_cases h1 : m1 = m
    · subst h1; simp [Ne.symm hne]
    · by_cases h2 : m2 = m
      · subst h2; simp [hne]
      · simp [h1, h2, Ne.symm h1, Ne.symm h2]
  have cand : ∀ m, m = m1 ∨ m = m2 → candidates 0 m = {Base.rho} := by
    intro m hm
    ext b
    unfold candidates
    rw [Finset.mem_filter, Finset.mem_singleton, Finsupp.mem_support_iff]
    cases b <;> rcases hm with rfl | rfl <;> simp [hm1, hm2, hdd]
  have nomom : ∀ m, m = m1 ∨ m = m2 → ∀ s ∈ m.support, s.hasMoment = false := by
    intro m hm s hs
    rw [Finsupp.mem_support_iff] at hs
    by_contra hmom
    apply hs
    have e1 : Sym.base (.u 0) ≠ s := by rintro rfl; exact hmom rfl
    have e2 : d ≠ s := by rintro rfl; exact hmom rfl
    rcases hm with rfl | rfl
    · rw [hm1, Finsupp.add_apply, Finsupp.single_apply, Finsupp.single_apply, if_neg e1, if_neg e2, add_zero]
    · rw [hm2, Finsupp.single_apply, if_neg e2]
  have hset : coefficientArgSet varying 0 =
      {(((1 : ℚ), Finsupp.single (Sym.base (.u 0)) 1), Base.rho), ((1, 0), Base.rho)} := by
    have t1 : m1 - Finsupp.single (Sym.diff (Base.rho, some 0)) 1 = Finsupp.single (Sym.base (.u 0)) 1 := by
      show Finsupp.single (Sym.base (.u 0)) 1 + m2 - m2 = _
      rw [add_tsub_cancel_right]
    have t2 : m2 - Finsupp.single (Sym.diff (Base.rho, some 0)) 1 = 0 := by
      show m2 - m2 = _
      rw [tsub_self]
    ext x
    rw [mem_argSet, hsupp, Finset.mem_insert, Finset.mem_singleton]
    constructor
    · rintro ⟨m, hm, -, b, hb, rfl⟩
      have hm' : m = m1 ∨ m = m2 := by simpa using hm
      rw [cand m hm', Finset.mem_singleton] at hb
      subst hb
      rcases hm' with rfl | rfl
      · left; rw [c1, t1]
      · right; rw [c2, t2]
    · rintro (rfl | rfl)
      · exact ⟨m1, by simp, ⟨nomom m1 (.inl rfl), by rw [cand m1 (.inl rfl)]; rfl⟩, .rho, by rw [cand m1 (.inl rfl)]; simp, by rw [c1, t1]⟩
      · exact ⟨m2, by simp, ⟨nomom m2 (.inr rfl), by rw [cand m2 (.inr rfl)]; rfl⟩, .rho, by rw [cand m2 (.inr rfl)]; simp, by rw [c2, t2]⟩
  have hpress : pressureTerms (fun _ : Fin 1 => varying) =
      {(((1 : ℚ), Finsupp.single (Sym.base (.u 0)) 1), Base.rho), ((1, 0), Base.rho)} := by
    rw [← hset]
    ext x
    rw [mem_pressure]
    exact ⟨fun h => h 0, fun h i => by rw [Fin.fin_one_eq_zero i]; exact h⟩
  have hn2 : ((((1 : ℚ), Finsupp.single (Sym.base (.u 0)) 1), Base.rho) : PressureTerm ℚ 1 Unit) ∉
      ({((1, 0), Base.rho)} : Finset (PressureTerm ℚ 1 Unit)) := by
    rw [Finset.mem_singleton]
    intro h
    have h' : (Finsupp.single (Sym.base (.u 0)) 1 : Sym 1 Unit →₀ ℕ) = 0 := (Prod.mk.inj (Prod.mk.inj h).1).2
    simp at h'
  have hw : ∀ i, withoutPressure (fun _ : Fin 1 => varying) i = 0 := by
    intro i
    rw [Fin.fin_one_eq_zero i]
    unfold withoutPressure
    rw [hpress, Finset.sum_insert hn2, Finset.sum_singleton]
    unfold PressureTerm.times varying
    simp only [X]
    rw [monomial_mul, monomial_mul]
    simp
  have hrow : ∀ i, rows enum (fun _ : Fin 1 => varying) i = .ok (fun _ => 0, 0) := by
    intro i
    unfold rows
    rw [hw]
    have hnil : enum (diffs (0 : Poly ℚ 1 Unit)) = [] := by
      refine List.eq_nil_iff_forall_not_mem.2 fun x hx => ?_
      rw [he] at hx
      simp [diffs] at hx
    rw [hnil]; rfl
  refine ⟨⟨true, pressureTerms (fun _ : Fin 1 => varying), fun _ _ => 0⟩, ?_, ?_⟩
  · have hpe : (fun i => refMomentum true i + varying - refMomentum (isCompressible (refContinuity true : Poly ℚ 1 Unit)) i) =
        (fun _ : Fin 1 => varying) := by
      funext i; rw [C113_compressible]; ring
    unfold matchNavierStokes
    rw [hpe, C113_compressible]
    unfold matchWith
    rw [if_neg (by push Not; intro i; rw [hsupp, Finset.card_pair hne]),
      if_neg (by rintro ⟨i, e, h⟩; rw [hrow] at h; cases h)]
    simp only [hrow, sub_self, implies_true, and_true, if_true]
  · intro h
    simp only at h
    rw [hpress, Finset.sum_insert hn2, Finset.sum_singleton] at h
    unfold Fields.momentum at h
    have hv : line.eval varying = Polynomial.X * 1 + 1 := by
      simp [varying, Fields.eval, Fields.base, line]
    have hr : line.eval (refMomentum true 0) =
        line.d none ((if true = true then line.rho else 1) * line.u 0) +
          ∑ j, line.d (some j) ((if true = true then line.rho else 1) * (line.u 0 * line.u j)) := by
      unfold refMomentum
      rw [eval_add, eval_fsum]
      simp only [eval_diffProduct, factor_prod, List.map_cons, List.map_nil, List.prod_cons, List.prod_nil, mul_one, Fields.base]
    have hp1 : line.eval (PressureTerm.times (((1 : ℚ), Finsupp.single (Sym.base (.u 0)) 1), Base.rho) (X (.base .rho))) =
        Polynomial.X * Polynomial.X := by
      unfold PressureTerm.times
      simp [Fields.eval, Fields.base, line, aeval_monomial]
    have hp2 : line.eval (PressureTerm.times (((1 : ℚ), 0), Base.rho) (X (.base .rho))) = Polynomial.X := by
      unfold PressureTerm.times
      simp [Fields.eval, Fields.base, line]
    have hz : line.eval (0 : Poly ℚ 1 Unit) = 0 := map_zero _
    rw [eval_add, hr, hp1, hp2, hz, hv] at h
    simp only [map_zero, Finset.sum_const_zero, add_zero] at h
    have h' : (Polynomial.X * 1 + 1 : Polynomial ℚ) = line.d (some 0) (Polynomial.X * Polynomial.X + Polynomial.X) :=
      add_left_cancel h
    have hd : line.d (some 0) (Polynomial.X * Polynomial.X + Polynomial.X) = (Polynomial.X + Polynomial.X + 1 : Polynomial ℚ) := by
      simp [line]
    rw [hd] at h'
    have := congrArg (Polynomial.eval 1) h'
    norm_num at this

end NavierStokesMatch
end Lbm
