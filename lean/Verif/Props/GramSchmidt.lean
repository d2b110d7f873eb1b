/-
C18: Gram-Schmidt orthogonalisation of moments.
-/
import Verif.GramSchmidt
import Mathlib.Algebra.BigOperators.Fin
import Mathlib.Tactic.NormNum
import Mathlib.Algebra.Order.Ring.Rat

set_option linter.unusedSectionVars false

namespace Lbm

variable {K P : Type} [Field K] [DecidableEq K] [AddCommGroup P] [Module K P] {Q : ℕ}

namespace Spec

/-- Weighted scalar product of two population-space vectors (docstring of `gram_schmidt`). -/
def wprod (w a b : Fin Q → K) : K := ∑ i, a i * b i * w i

/-- vector `i` is a linear combination of the vectors before it -/
def DependsOnPrevious (vs : List (Fin Q → K)) (i : ℕ) : Prop :=
  ∃ h : i < vs.length, vs[i] ∈ Submodule.span K {x | x ∈ vs.take i}

end Spec

theorem dotW_eq_wprod (w a b : Fin Q → K) : dotW w a b = Spec.wprod w a b := by
  unfold dotW Spec.wprod; exact Finset.sum_congr rfl fun i _ => by ring

/-- C18: what `gram_schmidt` returns: as many moments as given, pairwise orthogonal in the weighted scalar product, each
equal to the given one up to a linear combination of earlier given ones. No assumption on the weights. -/
theorem C18_result (ev : P →ₗ[K] (Fin Q → K)) (w : Fin Q → K) (ms out : List P)
    (h : gramSchmidt ev w ms = .ok out) :
    ∃ hl : out.length = ms.length,
      (∀ i j (hi : i < out.length) (hj : j < out.length), i ≠ j → Spec.wprod w (ev out[i]) (ev out[j]) = 0) ∧
      (∀ i (hi : i < out.length), out[i] - ms[i] ∈ Submodule.span K {x | x ∈ ms.take i}) ∧
      Submodule.span K {x | x ∈ out} = Submodule.span K {x | x ∈ ms} := by
  unfold gramSchmidt at h
  split_ifs at h with h0
  cases hr : gsLoop ev w ms [] with
  | error e => simp [hr, Except.map] at h
  | ok r =>
    simp only [hr, Except.map, Except.ok.injEq] at h
    subst h
    have F := gsFacts ev w ms r hr
    refine ⟨by simp [F.len], ?_, ?_, ?_⟩
    · have key : ∀ i j (hi : i < r.length) (hj : j < r.length), i < j → dotW w (ev r[i].2) (ev r[j].2) = 0 := by
        intro i j hi hj hij
        have := List.pairwise_iff_getElem.1 F.orth i j hi hj hij
        rwa [F.eval _ (List.getElem_mem hi), F.eval _ (List.getElem_mem hj)] at this
      intro i j hi hj hne
      simp only [List.getElem_map]
      simp only [List.length_map] at hi hj
      rw [← dotW_eq_wprod]
      rcases Nat.lt_or_gt_of_ne hne with hlt | hlt
      · exact key i j hi hj hlt
      · rw [dotW_comm]; exact key j i hj hi hlt
    · intro i hi
      simp only [List.getElem_map]
      exact F.diff i (by simpa using hi) _
    · apply le_antisymm
      · rw [Submodule.span_le]
        intro x hx
        obtain ⟨p, hp, rfl⟩ := List.mem_map.1 hx
        exact F.mem p hp
      · rw [Submodule.span_le]
        intro x hx
        have := F.mem' x hx
        refine Submodule.span_mono ?_ this
        rintro y ⟨p, hp, rfl⟩
        exact List.mem_map.2 ⟨p, hp, rfl⟩

variable [LinearOrder K] [IsStrictOrderedRing K]

omit [DecidableEq K] in
theorem dependsOnPrevious_map (ev : P →ₗ[K] (Fin Q → K)) (ms : List P) (i : ℕ) :
    Spec.DependsOnPrevious (ms.map ev) i ↔
      ∃ h : i < ms.length, ev ms[i] ∈ Submodule.span K {x | ∃ m ∈ ms.take i, ev m = x} := by
  simp [Spec.DependsOnPrevious, ← List.map_take]

/-- C18: for positive weights the `ValueError` is raised exactly when some vector other than the last one depends
linearly on the vectors before it. -/
theorem C18_error_iff (ev : P →ₗ[K] (Fin Q → K)) (w : Fin Q → K) (hw : ∀ i, 0 < w i) (ms : List P) :
    gramSchmidt ev w ms = .error .valueError ↔
      ∃ i, i + 1 < ms.length ∧ Spec.DependsOnPrevious (ms.map ev) i := by
  simp only [dependsOnPrevious_map]
  unfold gramSchmidt
  by_cases h0 : ms = []
  · subst h0; simp
  rw [if_neg h0]
  have hmap : ∀ x : Except PyErr (List ((Fin Q → K) × P)),
      x.map (fun l => l.map Prod.snd) = .error .valueError ↔ x = .error .valueError := by
    intro x; cases x <;> simp [Except.map]
  rw [hmap]
  clear hmap h0
  induction ms using List.reverseRecOn with
  | nil => simp [gsLoop]
  | append_singleton ms m ih =>
    rw [gsLoop_append]
    cases hr : gsLoop ev w ms [] with
    | error e =>
      have he : e = .valueError := by
        clear ih
        induction ms using List.reverseRecOn generalizing e with
        | nil => simp [gsLoop] at hr
        | append_singleton l a ihl =>
          rw [gsLoop_append] at hr
          cases hl : gsLoop ev w l [] with
          | error e' => simp [hl, Except.bind] at hr; rw [← hr]; exact ihl _ hl
          | ok r =>
            cases hc : gsStep w (ev a, a) r with
            | ok c => simp [hl, hc, Except.bind, Except.map] at hr
            | error e' => simp [hl, hc, Except.bind, Except.map] at hr; rw [← hr]; exact (gsStep_error.1 hc).1
      subst he
      simp only [Except.bind, true_iff]
      obtain ⟨i, hi, hlt, hs⟩ := ih.1 hr
      refine ⟨i, by simp; omega, by simp; omega, ?_⟩
      rw [List.getElem_append_left hlt, List.take_append_of_le_length hlt.le]
      exact hs
    | ok r =>
      have hz := gs_zero_iff hw hr
      have hm : ((gsStep w (ev m, m) r).map fun c => r ++ [c]) = .error .valueError ↔
          ∃ p ∈ r, dotW w p.1 p.1 = 0 := by
        cases hc : gsStep w (ev m, m) r with
        | ok c =>
          simp only [Except.map, reduceCtorEq, false_iff]
          intro hex
          have := (gsStep_error (cur := (ev m, m)) (e := .valueError)).2 ⟨rfl, hex⟩
          rw [hc] at this; simp at this
        | error e =>
          have := gsStep_error.1 hc
          simp [Except.map, this.1]
          simpa using this.2
      simp only [Except.bind]
      rw [hm, hz]
      constructor
      · rintro ⟨i, hi, hs⟩
        refine ⟨i, by simp; omega, by simp; omega, ?_⟩
        rw [List.getElem_append_left hi, List.take_append_of_le_length hi.le]
        exact hs
      · rintro ⟨i, hi, hlt, hs⟩
        have hi' : i < ms.length := by simp at hi; omega
        rw [List.getElem_append_left hi', List.take_append_of_le_length hi'.le] at hs
        exact ⟨i, hi', hs⟩

/-- C18: independent vectors are accepted, and none of the results vanishes on the stencil. -/
theorem C18_independent (ev : P →ₗ[K] (Fin Q → K)) (w : Fin Q → K) (hw : ∀ i, 0 < w i) (ms : List P) (hne : ms ≠ [])
    (hind : ∀ i, ¬ Spec.DependsOnPrevious (ms.map ev) i) :
    ∃ out, gramSchmidt ev w ms = .ok out ∧ ∀ m ∈ out, 0 < Spec.wprod w (ev m) (ev m) := by
  have hno : gramSchmidt ev w ms ≠ .error .valueError := by
    rw [Ne, C18_error_iff ev w hw]; rintro ⟨i, -, h⟩; exact hind i h
  have herr : ∀ e, gsLoop ev w ms [] = .error e → e = .valueError := by
    clear hno hind hne
    induction ms using List.reverseRecOn with
    | nil => simp [gsLoop]
    | append_singleton l a ihl =>
      intro e hr
      rw [gsLoop_append] at hr
      cases hl : gsLoop ev w l [] with
      | error e' => simp [hl, Except.bind] at hr; rw [← hr]; exact ihl _ hl
      | ok r =>
        cases hc : gsStep w (ev a, a) r with
        | ok c => simp [hl, hc, Except.bind, Except.map] at hr
        | error e' => simp [hl, hc, Except.bind, Except.map] at hr; rw [← hr]; exact (gsStep_error.1 hc).1
  cases hr : gsLoop ev w ms [] with
  | error e =>
    exfalso; apply hno
    simp [gramSchmidt, hne, hr, Except.map, herr e hr]
  | ok r =>
    refine ⟨r.map Prod.snd, by simp [gramSchmidt, hne, hr, Except.map], ?_⟩
    intro m hm
    obtain ⟨p, hp, rfl⟩ := List.mem_map.1 hm
    have F := gsFacts ev w ms r hr
    have hz : dotW w p.1 p.1 ≠ 0 := by
      intro h
      obtain ⟨i, hi, hs⟩ := (gs_zero_iff hw hr).1 ⟨p, hp, h⟩
      exact hind i ((dependsOnPrevious_map ev ms i).2 ⟨hi, hs⟩)
    rw [← dotW_eq_wprod, ← F.eval p hp]
    refine lt_of_le_of_ne ?_ (Ne.symm hz)
    unfold dotW
    refine Finset.sum_nonneg fun i _ => ?_
    have : p.1 i * (w i * p.1 i) = w i * (p.1 i * p.1 i) := by ring
    rw [this]
    exact mul_nonneg (hw i).le (mul_self_nonneg _)

/-- C18, negative: "linearly dependent input raises" is false. Dependence of the last vector is not noticed: given the
same moment twice the function returns the moment and zero. -/
theorem C18_last_vector_unchecked (ev : P →ₗ[K] (Fin Q → K)) (w : Fin Q → K) (hw : ∀ i, 0 < w i) (m : P)
    (hm : ev m ≠ 0) : gramSchmidt ev w [m, m] = .ok [m, 0] := by
  have h : dotW w (ev m) (ev m) ≠ 0 := fun h => hm ((dotW_self_eq_zero hw).1 h)
  simp [gramSchmidt, gsLoop, gsStep, h, Except.map, bind, Except.bind]

/-- An instance with two independent moments on three velocities (1 and x² on -1, 0, 1, weights 1/6, 2/3, 1/6): x² is
replaced by x² - 1/3. -/
example : gramSchmidt (LinearMap.id : (Fin 3 → ℚ) →ₗ[ℚ] Fin 3 → ℚ) ![1/6, 2/3, 1/6] [![1, 1, 1], ![1, 0, 1]] =
    .ok [![1, 1, 1], ![2/3, -1/3, 2/3]] := by
  have h1 : dotW (![1/6, 2/3, 1/6] : Fin 3 → ℚ) ![1, 1, 1] ![1, 1, 1] = 1 := by
    simp [dotW, Fin.sum_univ_succ]; norm_num
  have h2 : dotW (![1/6, 2/3, 1/6] : Fin 3 → ℚ) ![1, 0, 1] ![1, 1, 1] = 1/3 := by
    simp [dotW, Fin.sum_univ_succ]; norm_num
  have h3 : (![1, 0, 1] : Fin 3 → ℚ) - (1/3 : ℚ) • ![1, 1, 1] = ![2/3, -1/3, 2/3] := by
    ext i; fin_cases i <;> norm_num
  have h0 : ([![1, 1, 1], ![1, 0, 1]] : List (Fin 3 → ℚ)) ≠ [] := List.cons_ne_nil _ _
  simp only [gramSchmidt, h0, if_false, gsLoop, gsStep, Except.map, bind, Except.bind, LinearMap.id_coe, id, List.nil_append, h1, h2]
  norm_num [h3]

/-- The hypotheses of `C18_last_vector_unchecked`, and of the others with it, are satisfiable. -/
example : gramSchmidt (LinearMap.id : (Fin 2 → ℚ) →ₗ[ℚ] Fin 2 → ℚ) ![1, 1] [![1, 2], ![1, 2]] = .ok [![1, 2], 0] :=
  C18_last_vector_unchecked _ _ (by intro i; fin_cases i <;> norm_num) _ (by
    intro h; have := congrFun h 0; norm_num at this)

end Lbm
