/-
C51: the transformation between central moments and cumulants of the cumulant methods.
-/
import Verif.CumulantTransform
import Verif.Props.Cumulants
import Verif.Props.Chimera
import Verif.Props.MomentSets
import Verif.Props.Moments
import Mathlib.LinearAlgebra.Matrix.ToLinearEquiv

namespace Lbm
namespace CumulantTransform

open Shuffle GExpr

variable {D : ℕ}

/-! ### Expressions as functions of words -/

/-- the linear function of the wave numbers -/
def linw (u : Fin D → ℝ) : Shuffle (Fin D) ℝ := fun W => match W with | [i] => u i | _ => 0

theorem d_linw (u : Fin D → ℝ) (x : Fin D) : d x (linw u) = cst (u x) := by
  apply ext'
  intro W
  cases W with
  | nil => rfl
  | cons y W => rfl

noncomputable def den (u : Fin D → ℝ) (v : (Fin D → ℕ) → ℝ) : GExpr D → Shuffle (Fin D) ℝ
  | const n => cst n
  | wave i => linw fun j => if j = i then 1 else 0
  | vel i => cst (u i)
  | fn index => fun W => v fun k => index k + blockIndex W k
  | add a b => den u v a + den u v b
  | sub a b => den u v a - den u v b
  | mul a b => den u v a * den u v b
  | log a => compose (fun n => logDeriv n (den u v a [])) (den u v a) 0
  | inv a => compose (fun n => logDeriv n (den u v a [])) (den u v a) 1
  | exp a => compose (fun _ => Real.exp (den u v a [])) (den u v a) 0

theorem den_nil (u : Fin D → ℝ) (v : (Fin D → ℕ) → ℝ) (e : GExpr D) : den u v e [] = e.value u v := by
  induction e with
  | const n => simp [den, value, cst]
  | wave i => rfl
  | vel i => simp [den, value, cst]
  | fn index => simp [den, value, blockIndex]
  | add a b iha ihb => simp [den, value, iha, ihb]
  | sub a b iha ihb => simp [den, value, iha, ihb]
  | mul a b iha ihb => simp [den, value, iha, ihb]
  | log a ih => simp [den, value, logDeriv, ih]
  | inv a ih => simp [den, value, logDeriv, ih]
  | exp a ih => simp [den, value, ih]

/-- arguments of logarithms and inverses are not zero -/
def Ok (u : Fin D → ℝ) (v : (Fin D → ℕ) → ℝ) : GExpr D → Prop
  | const _ | wave _ | vel _ | fn _ => True
  | add a b | sub a b | mul a b => Ok u v a ∧ Ok u v b
  | log a | inv a => Ok u v a ∧ a.value u v ≠ 0
  | exp a => Ok u v a

theorem Ok.diff {u : Fin D → ℝ} {v : (Fin D → ℕ) → ℝ} {e : GExpr D} (i : Fin D) (h : Ok u v e) : Ok u v (diff i e) := by
  induction e with
  | const n => trivial
  | wave j => unfold GExpr.diff; split <;> trivial
  | vel j => trivial
  | fn index => trivial
  | add a b iha ihb => exact ⟨iha h.1, ihb h.2⟩
  | sub a b iha ihb => exact ⟨iha h.1, ihb h.2⟩
  | mul a b iha ihb => exact ⟨⟨iha h.1, h.2⟩, ⟨h.1, ihb h.2⟩⟩
  | log a ih => exact ⟨h, ih h.1⟩
  | inv a ih => exact ⟨trivial, ⟨h, h⟩, ih h.1⟩
  | exp a ih => exact ⟨h, ih h⟩

theorem d_cst (a : ℝ) (x : Fin D) : d x (cst a : Shuffle (Fin D) ℝ) = 0 := by
  apply ext'; intro W; simp [d, cst]

/-- second derivative of the logarithm -/
theorem compose_log_two (M : Shuffle (Fin D) ℝ) (h : M [] ≠ 0) :
    compose (fun n => logDeriv n (M [])) M 2 =
      -(compose (fun n => logDeriv n (M [])) M 1 * compose (fun n => logDeriv n (M [])) M 1) := by
  set F := compose (fun n => logDeriv n (M [])) M with hF
  have h1 : F 1 * M = 1 := compose_log_mul M h
  -- compare the derivatives: both sides solve the same equations
  have h2 : F 2 * M + F 1 = 0 := by
    have hd : ∀ x, d x (F 1 * M) = 0 := fun x => by rw [h1, d_one]
    -- `F 2 * M + F 1` has the right value on the empty word and satisfies a linear equation
    have hH : ∀ n : ℕ, F (n + 2) * M + ((n : Shuffle (Fin D) ℝ) + 1) * F (n + 1) = 0 := by
      intro n
      rw [compose_unique (fun _ => (0 : ℝ)) M (fun n => F (n + 2) * M + ((n : Shuffle (Fin D) ℝ) + 1) * F (n + 1)) ?_ ?_ n]
      · exact (compose_unique (fun _ => (0 : ℝ)) M (fun _ => 0) (fun _ => rfl) (fun n x => by simp) n).symm
      · intro n
        simp only [Shuffle.add_apply, mul_nil, natCast_nil, one_nil, hF, compose_nil]
        exact (logDeriv_mul (M []) h).2 n
      · intro n x
        simp only [d_add, d_mul, d_natCast, d_one, hF, d_compose, Nat.cast_add, Nat.cast_one]
        ring
    simpa using hH 0
  calc F 2 = F 2 * (F 1 * M) := by rw [h1, mul_one]
    _ = (F 2 * M + F 1) * F 1 - F 1 * F 1 := by ring
    _ = -(F 1 * F 1) := by rw [h2]; ring

theorem den_diff (u : Fin D → ℝ) (v : (Fin D → ℕ) → ℝ) (i : Fin D) (e : GExpr D) (h : Ok u v e) :
    d i (den u v e) = den u v (diff i e) := by
  induction e with
  | const n => simp only [den, GExpr.diff, d_cst]; apply ext'; intro W; simp [cst]
  | wave j =>
    unfold GExpr.diff
    simp only [den, d_linw]
    split <;> simp [den]
  | vel j => simp only [den, GExpr.diff, d_cst]; apply ext'; intro W; simp [cst]
  | fn index =>
    apply ext'
    intro W
    simp only [den, GExpr.diff, d_apply]
    show v _ = v _
    congr 1
    funext k
    by_cases hk : k = i
    · subst hk; simp [blockIndex]; omega
    · have hk' : i ≠ k := Ne.symm hk
      simp [blockIndex, hk, hk']
  | add a b iha ihb => simp only [den, GExpr.diff, d_add, iha h.1, ihb h.2]
  | sub a b iha ihb => simp only [den, GExpr.diff, d_sub, iha h.1, ihb h.2]
  | mul a b iha ihb => simp only [den, GExpr.diff, d_mul, iha h.1, ihb h.2]
  | log a ih => simp only [den, GExpr.diff, d_compose, ih h.1]
  | inv a ih =>
    have hne : den u v a [] ≠ 0 := by rw [den_nil]; exact h.2
    simp only [den, GExpr.diff, d_compose, ih h.1]
    rw [compose_log_two _ hne]
    have : (cst ((-1 : ℤ) : ℝ) : Shuffle (Fin D) ℝ) = -1 := by
      apply ext'; intro W
      cases W <;> simp [cst]
    rw [this]
    ring
  | exp a ih =>
    simp only [den, GExpr.diff, d_compose, ih h]
    rw [compose_const]

/-- symbolic differentiation along a word is evaluation at the word -/
theorem value_foldl (u : Fin D → ℝ) (v : (Fin D → ℕ) → ℝ) (W : List (Fin D)) : ∀ e : GExpr D, Ok u v e →
    (W.foldl (fun e i => diff i e) e).value u v = den u v e W := by
  induction W with
  | nil => intro e _; exact (den_nil u v e).symm
  | cons i W ih =>
    intro e h
    rw [List.foldl_cons, ih _ (h.diff i), ← den_diff u v i e h]
    rfl

theorem drift_foldl (u : Fin D → ℝ) (v : (Fin D → ℕ) → ℝ) (l : List (Fin D)) : ∀ e : GExpr D, Ok u v e →
    Ok u v (l.foldl (fun e i => add e (mul (wave i) (vel i))) e) ∧
    den u v (l.foldl (fun e i => add e (mul (wave i) (vel i))) e) =
      den u v e + (l.map fun i => (linw (fun j => if j = i then 1 else 0) * cst (u i) : Shuffle (Fin D) ℝ)).sum := by
  induction l with
  | nil => intro e h; exact ⟨h, by simp⟩
  | cons i l ih =>
    intro e h
    obtain ⟨h1, h2⟩ := ih (add e (mul (wave i) (vel i))) ⟨h, trivial, trivial⟩
    refine ⟨h1, ?_⟩
    rw [List.foldl_cons, h2, List.map_cons, List.sum_cons, ← add_assoc]
    rfl

theorem ok_drift (u : Fin D → ℝ) (v : (Fin D → ℕ) → ℝ) : Ok u v (drift : GExpr D) :=
  (drift_foldl u v _ (const 0) (by trivial)).1

theorem den_drift (u : Fin D → ℝ) (v : (Fin D → ℕ) → ℝ) : den u v (drift : GExpr D) = linw u := by
  unfold drift
  rw [(drift_foldl u v _ (const 0) (by trivial)).2]
  have h0 : den u v (const 0 : GExpr D) = 0 := by apply ext'; intro W; simp [den, cst]
  rw [h0, zero_add]
  apply ext'
  intro W
  have hsum : ∀ l : List (Shuffle (Fin D) ℝ), l.sum W = (l.map fun a => a W).sum := by
    intro l
    induction l with
    | nil => simp
    | cons a l ih => simp [ih]
  rw [hsum, List.map_map]
  have hterm : ∀ i : Fin D, (linw (fun j => if j = i then 1 else 0) * cst (u i) : Shuffle (Fin D) ℝ) W =
      u i * linw (fun j => if j = i then 1 else 0) W := fun i => by rw [mul_comm, cst_mul]
  rw [show ((fun a : Shuffle (Fin D) ℝ => a W) ∘ fun i => linw (fun j => if j = i then 1 else 0) * cst (u i)) =
    fun i => u i * linw (fun j => if j = i then 1 else 0) W from funext hterm, ← List.ofFn_eq_map, List.sum_ofFn]
  match W with
  | [] => simp [linw]
  | [x] => simp [linw]
  | _ :: _ :: _ => simp [linw]

theorem den_fn_zero (u : Fin D → ℝ) (v : (Fin D → ℕ) → ℝ) : den u v (fn 0) = wordFun v := by
  apply ext'
  intro W
  simp [den, wordFun]

/-- value of the velocity in the first-order indices -/
def firstOrder (u : Fin D → ℝ) (index : Fin D → ℕ) : ℝ := ∑ i, if index = Pi.single i 1 then u i else 0

theorem blockIndex_single (i : Fin D) : blockIndex [i] = (Pi.single i 1 : Fin D → ℕ) := by
  funext k
  by_cases h : k = i
  · subst h; simp [blockIndex]
  · have h' : ¬ i = k := fun e => h e.symm
    simp [blockIndex, h, h']

theorem single_ne (i : Fin D) : (Pi.single i 1 : Fin D → ℕ) ≠ 0 := by
  intro h
  have := congrFun h i
  simp at this

theorem single_inj {i j : Fin D} (h : (Pi.single i 1 : Fin D → ℕ) = Pi.single j 1) : i = j := by
  by_contra hne
  have := congrFun h i
  simp [hne] at this

theorem firstOrder_single (u : Fin D → ℝ) (i : Fin D) : firstOrder u (Pi.single i 1) = u i := by
  unfold firstOrder
  rw [Finset.sum_eq_single i]
  · simp
  · intro j _ hj; rw [if_neg]; intro h; exact hj (single_inj h).symm
  · simp

theorem firstOrder_of_not {u : Fin D → ℝ} {index : Fin D → ℕ} (h : ¬ IsFirstOrder index) : firstOrder u index = 0 :=
  Finset.sum_eq_zero fun i _ => if_neg fun e => h ⟨i, e⟩

theorem linw_blockIndex (u : Fin D → ℝ) (W : List (Fin D)) : linw u W = firstOrder u (blockIndex W) := by
  match W with
  | [] =>
    rw [firstOrder_of_not]; · rfl
    rintro ⟨i, h⟩
    exact single_ne i (h.symm.trans (by funext k; simp [blockIndex]))
  | [i] => rw [blockIndex_single, firstOrder_single]; rfl
  | x :: y :: W =>
    rw [firstOrder_of_not]; · rfl
    rintro ⟨i, h⟩
    have hs : ∑ k, blockIndex (x :: y :: W) k = ∑ k, (Pi.single i 1 : Fin D → ℕ) k := by rw [h]
    have h1 : ∑ k, (Pi.single i 1 : Fin D → ℕ) k = 1 := by simp
    have h2 : ∀ V : List (Fin D), ∑ k, blockIndex V k = V.length := by
      intro V
      have := Multiset.sum_count_eq_card (s := Finset.univ) (m := (V : Multiset (Fin D))) (fun a _ => Finset.mem_univ a)
      simpa [blockIndex] using this
    rw [h1, h2] at hs
    simp at hs

/-! ### C51, single cumulants and central moments -/

/-- the sum over set partitions of any word with the given index -/
theorem cumulant_word (m : (Fin D → ℕ) → ℝ) (W : List (Fin D)) :
    cumulantOfRawMoments (blockIndex W) m = compose (fun n => logDeriv n (m 0)) (wordFun m) 0 W := by
  rw [cumulantOfRawMoments, transform_compose]
  refine Sym.compose (wordFun_sym m) _ W.length 0 _ _ ?_ ?_
  · refine (List.reverse_perm _).trans (List.perm_iff_count.mpr fun i => ?_)
    exact congrFun (blockIndex_partitionList (blockIndex W)) i
  · have h : (partitionList (blockIndex W)).Perm W := List.perm_iff_count.mpr fun i =>
      congrFun (blockIndex_partitionList (blockIndex W)) i
    rw [List.length_reverse, h.length_eq]

/-- C51, forward: the symbolic derivatives give the sum over set partitions, plus the velocity for first-order indices -/
theorem C51_forward (rho : ℝ) (u : Fin D → ℝ) (kappa : (Fin D → ℕ) → ℝ) (h0 : kappa 0 ≠ 0) (index : Fin D → ℕ) :
    cumulantFromCentralMoments rho u kappa index =
      rho * ((∑ i, if index = Pi.single i 1 then u i else 0) + cumulantOfRawMoments index kappa) := by
  have hok : Ok u kappa (cumulantFunction : GExpr D) := ⟨ok_drift u kappa, trivial, h0⟩
  rw [cumulantFromCentralMoments, differentiate, value_foldl _ _ _ _ hok]
  congr 1
  show (den u kappa drift + den u kappa (log (fn 0))) (partitionList index) = _
  rw [Shuffle.add_apply, den_drift, linw_blockIndex, blockIndex_partitionList]
  congr 1
  have := cumulant_word kappa (partitionList index)
  rw [blockIndex_partitionList] at this
  rw [this]
  show compose (fun n => logDeriv n (den u kappa (fn 0) [])) (den u kappa (fn 0)) 0 _ = _
  rw [den_fn_zero, wordFun_nil]

/-- C51, backward -/
theorem C51_backward (rho : ℝ) (u : Fin D → ℝ) (c : (Fin D → ℕ) → ℝ) (index : Fin D → ℕ) :
    centralMomentFromCumulants rho u c index =
      rawMomentOfCumulants index fun i => c i / rho - ∑ j, if i = Pi.single j 1 then u j else 0 := by
  set v : (Fin D → ℕ) → ℝ := fun i => c i / rho with hv
  set w : (Fin D → ℕ) → ℝ := fun i => v i - firstOrder u i with hw
  have hok : Ok u v (momentFunction : GExpr D) := ⟨trivial, ok_drift u v⟩
  have hin : den u v (sub (fn 0) drift) = wordFun w := by
    show den u v (fn 0) - den u v drift = _
    rw [den_fn_zero, den_drift]
    apply ext'
    intro W
    rw [Shuffle.sub_apply, linw_blockIndex]
    rfl
  rw [centralMomentFromCumulants, differentiate, value_foldl _ _ _ _ hok]
  show compose (fun _ => Real.exp (den u v (sub (fn 0) drift) [])) (den u v (sub (fn 0) drift)) 0 _ = _
  rw [hin, rawMomentOfCumulants, transform_compose, wordFun_nil]
  exact Sym.compose (wordFun_sym w) _ _ 0 _ _ (List.reverse_perm _).symm le_rfl

/-- C51: central moments, transformed to cumulants and back, are unchanged -/
theorem C51_backward_forward (rho : ℝ) (hr : rho ≠ 0) (u : Fin D → ℝ) (kappa : (Fin D → ℕ) → ℝ) (h0 : 0 < kappa 0)
    (index : Fin D → ℕ) :
    centralMomentFromCumulants rho u (cumulantFromCentralMoments rho u kappa) index = kappa index := by
  rw [C51_backward]
  have : (fun i => cumulantFromCentralMoments rho u kappa i / rho - ∑ j, if i = Pi.single j 1 then u j else 0) =
      fun i => cumulantOfRawMoments i kappa := by
    funext i
    rw [C51_forward rho u kappa h0.ne', mul_div_cancel_left₀ _ hr]
    ring
  rw [this, C39_moment_of_cumulants kappa h0]

/-- C51: cumulants, transformed to central moments and back, are unchanged -/
theorem C51_forward_backward (rho : ℝ) (hr : rho ≠ 0) (u : Fin D → ℝ) (c : (Fin D → ℕ) → ℝ) (index : Fin D → ℕ) :
    cumulantFromCentralMoments rho u (centralMomentFromCumulants rho u c) index = c index := by
  have hm : centralMomentFromCumulants rho u c = fun i => rawMomentOfCumulants i
      fun i => c i / rho - ∑ j, if i = Pi.single j 1 then u j else 0 := funext fun i => C51_backward rho u c i
  rw [C51_forward, hm, C39_cumulant_of_moments]
  · field_simp
    ring
  · rw [hm]
    show rawMomentOfCumulants 0 _ ≠ 0
    rw [rawMomentOfCumulants, partitionTransform, if_pos partitionList_zero]
    exact (Real.exp_pos _).ne'

/-- C51: from the central moments of populations about any velocity, the transformation gives the cumulants of the
populations, `rho` times the derivatives of the logarithm of their generating function; they do not depend on the velocity -/
theorem C51_populations (S : Stencil D) (f : Fin S.Q → ℝ) (hρ : ∑ q, f q ≠ 0) (rho : ℝ) (u : Fin D → ℝ) (index : Fin D → ℕ) :
    cumulantFromCentralMoments rho u (Spec.momentAbout S f u) index = rho * discreteCumulant S f index := by
  have h0 : ∀ u, Spec.momentAbout S f u 0 = ∑ q, f q := by intro u; simp [Spec.momentAbout]
  rw [C51_forward rho u _ (by rw [h0]; exact hρ), C39_generating_function S f hρ]
  congr 1
  have key : ∀ W : List (Fin D), linw u W + compose (fun n => logDeriv n (Spec.momentAbout S f u 0)) (wordFun (Spec.momentAbout S f u)) 0 W =
      compose (fun n => logDeriv n (Spec.momentAbout S f 0 0)) (wordFun (Spec.momentAbout S f 0)) 0 W := by
    intro W
    cases W with
    | nil =>
      simp only [compose_nil, h0]
      show (0 : ℝ) + _ = _
      rw [zero_add]
    | cons x W =>
      have := congrFun (d_log_shift (wordFun (Spec.momentAbout S f 0)) (by rw [wordFun_nil, h0]; exact hρ) (fun i => -u i) x) W
      rw [← momentAbout_shift, Shuffle.add_apply] at this
      simp only [d_apply, wordFun_nil] at this
      rw [this]
      have h1 : linw u (x :: W) = d x (linw u) W := rfl
      rw [h1, d_linw]
      by_cases h : W = [] <;> simp [cst, h]
  have := key (partitionList index)
  rw [linw_blockIndex, blockIndex_partitionList] at this
  have h1 := cumulant_word (Spec.momentAbout S f u) (partitionList index)
  have h2 := cumulant_word (Spec.momentAbout S f 0) (partitionList index)
  rw [blockIndex_partitionList] at h1 h2
  rw [h1, h2, ← this]
  rfl

/-! ### Low orders -/

theorem cumulant_partSum (m : (Fin D → ℕ) → ℝ) (W : List (Fin D)) :
    cumulantOfRawMoments (blockIndex W) m = partSum (fun n => logDeriv n (m 0)) (fun b => m (blockIndex b)) W := by
  rw [partSum_eq, ← blockIndex_perm W.reverse_perm, cumulant_word]
  congr 2
  apply ext'
  intro V
  show m (blockIndex V) = m (blockIndex V.reverse)
  rw [blockIndex_perm V.reverse_perm]

/-- C51, low orders, for central moments about the mean velocity (so that those of first order vanish): cumulants of order
zero and one are `ρ log ρ` and the momentum, those of order two and three are the central moments, and in order four and five
the products of central moments are subtracted -/
theorem C51_low_orders (u : Fin D → ℝ) (kappa : (Fin D → ℕ) → ℝ) (h0 : kappa 0 ≠ 0)
    (h1 : ∀ a, kappa (blockIndex [a]) = 0) :
    cumulantFromCentralMoments (kappa 0) u kappa 0 = kappa 0 * Real.log (kappa 0) ∧
    (∀ a, cumulantFromCentralMoments (kappa 0) u kappa (blockIndex [a]) = kappa 0 * u a) ∧
    (∀ a b, cumulantFromCentralMoments (kappa 0) u kappa (blockIndex [a, b]) = kappa (blockIndex [a, b])) ∧
    (∀ a b c, cumulantFromCentralMoments (kappa 0) u kappa (blockIndex [a, b, c]) = kappa (blockIndex [a, b, c])) ∧
    (∀ a b c d, cumulantFromCentralMoments (kappa 0) u kappa (blockIndex [a, b, c, d]) = kappa (blockIndex [a, b, c, d]) -
      (kappa (blockIndex [a, b]) * kappa (blockIndex [c, d]) + kappa (blockIndex [a, c]) * kappa (blockIndex [b, d]) +
        kappa (blockIndex [a, d]) * kappa (blockIndex [b, c])) / kappa 0) ∧
    (∀ a b c d e, cumulantFromCentralMoments (kappa 0) u kappa (blockIndex [a, b, c, d, e]) =
      kappa (blockIndex [a, b, c, d, e]) -
      (kappa (blockIndex [a, b]) * kappa (blockIndex [c, d, e]) + kappa (blockIndex [a, c]) * kappa (blockIndex [b, d, e]) +
        kappa (blockIndex [a, d]) * kappa (blockIndex [b, c, e]) + kappa (blockIndex [a, e]) * kappa (blockIndex [b, c, d]) +
        kappa (blockIndex [b, c]) * kappa (blockIndex [a, d, e]) + kappa (blockIndex [b, d]) * kappa (blockIndex [a, c, e]) +
        kappa (blockIndex [b, e]) * kappa (blockIndex [a, c, d]) + kappa (blockIndex [c, d]) * kappa (blockIndex [a, b, e]) +
        kappa (blockIndex [c, e]) * kappa (blockIndex [a, b, d]) + kappa (blockIndex [d, e]) * kappa (blockIndex [a, b, c]))
          / kappa 0) := by
  have hnil : blockIndex ([] : List (Fin D)) = 0 := by funext k; simp [blockIndex]
  have hf : ∀ W : List (Fin D), (∑ i, if blockIndex W = Pi.single i 1 then u i else 0) = linw u W := fun W =>
    (linw_blockIndex u W).symm
  have hc : ∀ W : List (Fin D), cumulantFromCentralMoments (kappa 0) u kappa (blockIndex W) = kappa 0 * (linw u W +
      partSum (fun n => logDeriv n (kappa 0)) (fun b => kappa (blockIndex b)) W) := fun W => by
    rw [C51_forward _ u kappa h0, hf, cumulant_partSum]
  refine ⟨?_, fun a => ?_, fun a b => ?_, fun a b c => ?_, fun a b c d => ?_, fun a b c d e => ?_⟩
  · have := hc []
    rw [hnil] at this
    rw [this]
    simp [linw, partSum, parts, logDeriv]
  all_goals
    rw [hc]
    simp [linw, partSum, parts, insertEach, h1, logDeriv, List.range_succ]
  all_goals field_simp
  all_goals ring

/-! ### Symbols that occur -/

theorem reads_diff (i : Fin D) (e : GExpr D) : ∀ b ∈ (diff i e).reads, ∃ a ∈ e.reads, b ≤ fun k => a k + if k = i then 1 else 0 := by
  induction e with
  | const n => intro b hb; simp [GExpr.diff, reads] at hb
  | wave j =>
    intro b hb
    unfold GExpr.diff at hb
    split at hb <;> simp [reads] at hb
  | vel j => intro b hb; simp [GExpr.diff, reads] at hb
  | fn index =>
    intro b hb
    simp only [GExpr.diff, reads, List.mem_singleton] at hb
    exact ⟨index, by simp [reads], hb.le⟩
  | add a b iha ihb | sub a b iha ihb =>
    intro c hc
    simp only [GExpr.diff, reads, List.mem_append] at hc ⊢
    rcases hc with hc | hc
    · obtain ⟨x, hx, h⟩ := iha c hc; exact ⟨x, Or.inl hx, h⟩
    · obtain ⟨x, hx, h⟩ := ihb c hc; exact ⟨x, Or.inr hx, h⟩
  | mul a b iha ihb =>
    intro c hc
    simp only [GExpr.diff, reads, List.mem_append] at hc ⊢
    rcases hc with (hc | hc) | hc | hc
    · obtain ⟨x, hx, h⟩ := iha c hc; exact ⟨x, Or.inl hx, h⟩
    · exact ⟨c, Or.inr hc, fun k => by simp⟩
    · exact ⟨c, Or.inl hc, fun k => by simp⟩
    · obtain ⟨x, hx, h⟩ := ihb c hc; exact ⟨x, Or.inr hx, h⟩
  | log a ih | inv a ih | exp a ih =>
    intro c hc
    simp only [GExpr.diff, reads, List.mem_append, List.nil_append, or_self] at hc ⊢
    rcases hc with hc | hc
    · exact ⟨c, hc, fun k => by simp⟩
    · exact ih c hc

theorem reads_foldl (W : List (Fin D)) : ∀ e : GExpr D, ∀ b ∈ (W.foldl (fun e i => diff i e) e).reads,
    ∃ a ∈ e.reads, b ≤ fun k => a k + blockIndex W k := by
  induction W with
  | nil => intro e b hb; exact ⟨b, hb, fun k => by simp [blockIndex]⟩
  | cons i W ih =>
    intro e b hb
    obtain ⟨a, ha, h⟩ := ih _ b hb
    obtain ⟨a', ha', h'⟩ := reads_diff i e a ha
    refine ⟨a', ha', fun k => (h k).trans ?_⟩
    have := h' k
    by_cases hk : k = i
    · subst hk; simp [blockIndex] at this ⊢; omega
    · have hk' : ¬ i = k := fun e => hk e.symm
      simp [blockIndex, hk, hk'] at this ⊢; omega

theorem reads_drift : (drift : GExpr D).reads = [] := by
  have : ∀ (l : List (Fin D)) (e : GExpr D), e.reads = [] → (l.foldl (fun e i => add e (mul (wave i) (vel i))) e).reads = [] := by
    intro l
    induction l with
    | nil => intro e h; exact h
    | cons i l ih => intro e h; exact ih _ (by simp [reads, h])
  exact this _ _ rfl

/-- C51: a cumulant contains only central moments of componentwise smaller or equal index, and vice versa -/
theorem C51_reads (index : Fin D → ℕ) :
    (∀ b ∈ (differentiate cumulantFunction index).reads, b ≤ index) ∧
    ∀ b ∈ (differentiate momentFunction index).reads, b ≤ index := by
  constructor <;>
  · intro b hb
    obtain ⟨a, ha, h⟩ := reads_foldl _ _ b hb
    simp [cumulantFunction, momentFunction, reads, reads_drift] at ha
    subst ha
    intro k
    have := h k
    rw [blockIndex_partitionList] at this
    simpa using this

theorem value_congr (u : Fin D → ℝ) (v w : (Fin D → ℕ) → ℝ) (e : GExpr D) (h : ∀ b ∈ e.reads, v b = w b) :
    e.value u v = e.value u w := by
  induction e with
  | const n => rfl
  | wave j => rfl
  | vel j => rfl
  | fn index => exact h index (by simp [reads])
  | add a b iha ihb | sub a b iha ihb | mul a b iha ihb =>
    simp only [value]
    rw [iha fun c hc => h c (by simp [reads, hc]), ihb fun c hc => h c (by simp [reads, hc])]
  | log a ih | inv a ih | exp a ih => simp only [value]; rw [ih h]

/-! ### The constructor -/

theorem mem_contained (a e : List ℕ) : a ∈ contained e ↔ List.Forall₂ (· ≤ ·) a e := by
  rw [contained, mem_pyProduct, List.forall₂_map_right_iff]
  simp [Nat.lt_succ_iff]

theorem construct_ok {Q : ℕ} {polys : List PExpr} {t : Transform Q} (h : construct D Q polys = .ok t) :
    t.exponents = Chimera.extractMonomials D polys ∧ t.required = requiredCentralMoments D t.exponents ∧
    t.exponents.length = Q ∧ polys.length = Q ∧ t.required.length = Q ∧
    t.monoToPoly = monoToPoly ℝ Q t.exponents polys ∧ t.monoToPoly * t.polyToMono = 1 ∧ t.polyToMono * t.monoToPoly = 1 := by
  unfold construct at h
  simp only at h
  split at h
  · cases h
  rename_i h1
  split at h
  · cases h
  rename_i h2
  split at h
  · cases h
  rename_i h3
  unfold MomentMethod.pyInv at h
  by_cases hd : (monoToPoly ℝ Q (Chimera.extractMonomials D polys) polys).det = 0
  · rw [if_pos hd] at h; cases h
  · rw [if_neg hd] at h
    cases h
    have hu : IsUnit (monoToPoly ℝ Q (Chimera.extractMonomials D polys) polys).det := isUnit_iff_ne_zero.mpr hd
    exact ⟨rfl, rfl, not_not.mp h1, not_not.mp h2, not_not.mp h3, rfl, Matrix.mul_nonsing_inv _ hu, Matrix.nonsing_inv_mul _ hu⟩

/-- C51: if the constructor succeeds, the required central moments are exactly the monomials of the cumulants, they contain
those of order zero and one and with every index all smaller ones -/
theorem C51_constructor {Q : ℕ} {polys : List PExpr} {t : Transform Q} (h : construct D Q polys = .ok t) :
    t.exponents.Nodup ∧ t.required.Nodup ∧ (∀ e, e ∈ t.required ↔ e ∈ t.exponents) ∧
    Chimera.Spec.DownwardClosed t.exponents ∧ ∀ e ∈ (momentsUpToOrder 1 D).getD [], e ∈ t.exponents := by
  obtain ⟨h1, h2, h3, -, h5, -⟩ := construct_ok h
  have hn : t.exponents.Nodup := by rw [h1]; exact List.nodup_dedup _
  have hr : t.required.Nodup := by rw [h2]; exact List.nodup_dedup _
  have hsub : ∀ e ∈ t.exponents, e ∈ t.required := by
    intro e he
    rw [h2, requiredCentralMoments, List.mem_dedup, List.mem_append, List.mem_flatMap]
    exact Or.inr ⟨e, he, (mem_contained e e).mpr (List.forall₂_same.mpr fun _ _ => le_rfl)⟩
  have hperm : t.exponents.Perm t.required :=
    (List.subperm_of_subset hn hsub).perm_of_length_le (by rw [h3, h5])
  refine ⟨hn, hr, fun e => hperm.mem_iff.symm, ?_, ?_⟩
  · intro e he a ha
    rw [hperm.mem_iff, h2, requiredCentralMoments, List.mem_dedup, List.mem_append, List.mem_flatMap]
    exact Or.inr ⟨e, he, (mem_contained a e).mpr ha⟩
  · intro e he
    rw [hperm.mem_iff, h2, requiredCentralMoments, List.mem_dedup, List.mem_append]
    exact Or.inl he

theorem exponents_length {Q : ℕ} {polys : List PExpr} {t : Transform Q} (hD : D ≤ 3) (h : construct D Q polys = .ok t) :
    ∀ e ∈ t.exponents, e.length = D := by
  intro e he
  rw [(construct_ok h).1, Chimera.extractMonomials, List.mem_dedup, List.mem_flatMap] at he
  obtain ⟨p, -, hp⟩ := he
  obtain ⟨s, hs, rfl⟩ := List.mem_map.mp hp
  have := (PExpr.expand_spec (R := ℤ) p).1 s (List.mem_of_mem_filter hs)
  rw [List.length_take, this]
  omega

theorem ofFn_toIndex (e : List ℕ) (h : e.length = D) : List.ofFn (toIndex D e) = e := by
  subst h
  apply List.ext_getElem
  · simp
  · intro i h1 h2
    rw [List.getElem_ofFn, toIndex, List.getD_eq_getElem _ _ h2]

theorem forall₂_ofFn {b : Fin D → ℕ} {e : List ℕ} (h : e.length = D) (hb : b ≤ toIndex D e) :
    List.Forall₂ (· ≤ ·) (List.ofFn b) e := by
  rw [List.forall₂_iff_get]
  refine ⟨by simp [h], fun i h1 h2 => ?_⟩
  have := hb ⟨i, by rw [← h]; exact h2⟩
  simp only [toIndex] at this
  rw [List.getD_eq_getElem _ _ h2] at this
  simpa using this

theorem monomialCumulant_get {Q : ℕ} {t : Transform Q} (hn : t.exponents.Nodup) (hl : t.exponents.length = Q)
    (free : List ℕ → ℝ) (c : Fin Q → ℝ) (j : Fin Q) :
    monomialCumulant t free c (t.exponents.getD j []) = t.polyToMono.mulVec c j := by
  have hj : (j : ℕ) < t.exponents.length := by rw [hl]; exact j.isLt
  have : t.exponents.idxOf (t.exponents.getD j []) = j := by
    rw [List.getD_eq_getElem _ _ hj]
    exact hn.idxOf_getElem j hj
  rw [monomialCumulant, dif_pos (by rw [this]; exact j.isLt)]
  congr 1
  exact Fin.ext this

/-- C51: if the constructor succeeds, backward after forward transformation gives back every required central moment,
whatever the values of symbols that are not assigned -/
theorem C51_transform_backward_forward {Q : ℕ} {polys : List PExpr} {t : Transform Q} (hD : D ≤ 3)
    (h : construct D Q polys = .ok t) (rho : ℝ) (hr : rho ≠ 0) (u : Fin D → ℝ) (kappa free : List ℕ → ℝ)
    (h0 : 0 < kappa (List.replicate D 0)) :
    ∀ e ∈ t.required, backwardTransform D t rho u free (forwardTransform D t rho u kappa) e = kappa e := by
  intro e he
  obtain ⟨hn, -, hmem, hdc, -⟩ := C51_constructor h
  obtain ⟨-, -, hl, -, -, -, -, hPP⟩ := construct_ok h
  have hlen := exponents_length hD h
  rw [hmem] at he
  set k : (Fin D → ℕ) → ℝ := fun i => kappa (List.ofFn i) with hk
  have h0' : 0 < k 0 := by
    have : List.ofFn (0 : Fin D → ℕ) = List.replicate D 0 := by rw [← List.ofFn_const]; rfl
    show 0 < kappa (List.ofFn 0)
    rw [this]; exact h0
  have hcong : backwardTransform D t rho u free (forwardTransform D t rho u kappa) e =
      centralMomentFromCumulants rho u (cumulantFromCentralMoments rho u k) (toIndex D e) := by
    unfold backwardTransform
    conv_lhs => unfold centralMomentFromCumulants
    conv_rhs => unfold centralMomentFromCumulants
    refine value_congr _ _ _ _ fun b hb => ?_
    have hb' := (C51_reads (toIndex D e)).2 b hb
    have hbm : List.ofFn b ∈ t.exponents := hdc e he _ (forall₂_ofFn (hlen e he) hb')
    obtain ⟨j, hj, hje⟩ := List.mem_iff_getElem.mp hbm
    have hjQ : j < Q := by rw [← hl]; exact hj
    have hg : t.exponents.getD ((⟨j, hjQ⟩ : Fin Q) : ℕ) [] = List.ofFn b := by
      rw [List.getD_eq_getElem _ _ hj]; exact hje
    show monomialCumulant t free (forwardTransform D t rho u kappa) (List.ofFn b) / rho = _
    rw [← hg, monomialCumulant_get hn hl, forwardTransform, Matrix.mulVec_mulVec, hPP, Matrix.one_mulVec, hg]
    congr 2
    funext i
    simp [toIndex]
  rw [hcong, C51_backward_forward rho hr u k h0', hk]
  simp only
  rw [ofFn_toIndex e (hlen e he)]

/-- C51: if the constructor succeeds, forward after backward transformation gives back the polynomial cumulants -/
theorem C51_transform_forward_backward {Q : ℕ} {polys : List PExpr} {t : Transform Q} (hD : D ≤ 3)
    (h : construct D Q polys = .ok t) (rho : ℝ) (hr : rho ≠ 0) (u : Fin D → ℝ) (c : Fin Q → ℝ) (kappa free : List ℕ → ℝ)
    (hk : ∀ e ∈ t.required, kappa e = backwardTransform D t rho u free c e) :
    forwardTransform D t rho u kappa = c := by
  obtain ⟨hn, -, hmem, hdc, -⟩ := C51_constructor h
  obtain ⟨-, -, hl, -, -, -, hPP, -⟩ := construct_ok h
  have hlen := exponents_length hD h
  set m : (Fin D → ℕ) → ℝ := fun i => monomialCumulant t free c (List.ofFn i) with hm
  have hj : ∀ j : Fin Q, cumulantFromCentralMoments rho u (fun i => kappa (List.ofFn i)) (toIndex D (t.exponents.getD j [])) =
      t.polyToMono.mulVec c j := by
    intro j
    have hjl : (j : ℕ) < t.exponents.length := by rw [hl]; exact j.isLt
    have he : t.exponents.getD j [] ∈ t.exponents := by rw [List.getD_eq_getElem _ _ hjl]; exact List.getElem_mem hjl
    have h1 := C51_forward_backward rho hr u m (toIndex D (t.exponents.getD j []))
    rw [hm] at h1
    simp only [ofFn_toIndex _ (hlen _ he), monomialCumulant_get hn hl] at h1
    rw [← h1]
    unfold cumulantFromCentralMoments
    congr 1
    refine value_congr _ _ _ _ fun b hb => ?_
    have hb' := (C51_reads (toIndex D (t.exponents.getD j []))).1 b hb
    have hbm : List.ofFn b ∈ t.exponents := hdc _ he _ (forall₂_ofFn (hlen _ he) hb')
    rw [hk _ ((hmem _).mpr hbm), backwardTransform]
    congr 1
    funext i
    simp [toIndex]
  unfold forwardTransform
  rw [show (fun j : Fin Q => cumulantFromCentralMoments rho u (fun i => kappa (List.ofFn i)) (toIndex D (t.exponents.getD j []))) =
    t.polyToMono.mulVec c from funext hj, Matrix.mulVec_mulVec, hPP, Matrix.one_mulVec]

/-! ### The sets offered by the library -/

/-- value of a monomial -/
def monomialAt (e : List ℕ) (c : List ℤ) : ℤ := (List.zipWith (fun x n => x ^ n) c e).prod

/-- the matrix represents the polynomials on the velocities -/
def represents (st : List (List ℤ)) (ex : List (List ℕ)) (ps : List PExpr) : Bool :=
  ps.all fun p => st.all fun c => p.at' c == (ex.map fun e => coefficient e p * monomialAt e c).sum

theorem det_ne_zero {st : List (List ℤ)} {ex : List (List ℕ)} {ps : List PExpr} (hu : Lbm.Spec.Unisolvent st ps)
    (hex : ex.length = ps.length) (hr : represents st ex ps = true) : (monoToPoly ℝ ps.length ex ps).det ≠ 0 := by
  intro hdet
  obtain ⟨r, hr0, hrP⟩ := Matrix.exists_vecMul_eq_zero_iff.mpr hdet
  obtain ⟨i, hi⟩ : ∃ i, r i ≠ 0 := by
    by_contra hne
    push Not at hne
    exact hr0 (funext hne)
  obtain ⟨f, hf, -⟩ := hu.2 ℝ (fun k => if k = i then 1 else 0)
  simp only [represents, List.all_eq_true, beq_iff_eq] at hr
  have hval : ∀ (k : Fin ps.length) (q : Fin st.length), (((ps.get k).at' (st.get q) : ℤ) : ℝ) =
      ∑ j : Fin ps.length, monoToPoly ℝ ps.length ex ps k j * ((monomialAt (ex.getD j []) (st.get q) : ℤ) : ℝ) := by
    intro k q
    rw [hr _ (List.get_mem ps k) _ (List.get_mem st q)]
    have hl : ex = List.ofFn fun j : Fin ps.length => ex.getD j [] := by
      apply List.ext_getElem
      · simp [hex]
      · intro n h1 h2
        rw [List.getElem_ofFn, List.getD_eq_getElem _ _ h1]
    conv_lhs => rw [hl]
    rw [List.map_ofFn, List.sum_ofFn]
    push_cast
    refine Finset.sum_congr rfl fun j _ => ?_
    simp only [Function.comp, monoToPoly]
    push_cast
    rw [List.getD_eq_getElem _ _ k.isLt]
    rfl
  have hzero : ∑ k : Fin ps.length, r k * (if k = i then (1 : ℝ) else 0) = 0 := by
    calc ∑ k : Fin ps.length, r k * (if k = i then (1 : ℝ) else 0)
        = ∑ k, r k * ∑ q, (((ps.get k).at' (st.get q) : ℤ) : ℝ) * f q := by
          refine Finset.sum_congr rfl fun k _ => ?_
          rw [hf k]
      _ = ∑ q, ∑ j : Fin ps.length, (Matrix.vecMul r (monoToPoly ℝ ps.length ex ps)) j *
            ((monomialAt (ex.getD j []) (st.get q) : ℤ) : ℝ) * f q := by
          simp only [hval, Matrix.vecMul, dotProduct, Finset.mul_sum, Finset.sum_mul]
          rw [Finset.sum_comm]
          refine Finset.sum_congr rfl fun q _ => ?_
          rw [Finset.sum_comm]
          refine Finset.sum_congr rfl fun j _ => Finset.sum_congr rfl fun k _ => ?_
          ring
      _ = 0 := by simp [hrP]
  rw [Finset.sum_eq_single i (fun k _ hk => by simp [hk]) (by simp)] at hzero
  simp at hzero
  exact hi hzero

/-- what is checked for one set -/
def setOk (st : List (List ℤ)) (ps : List PExpr) : Bool :=
  let ex := Chimera.extractMonomials (st.headD []).length ps
  (ex.length == ps.length) && (ps.length == st.length) &&
    ((requiredCentralMoments (st.headD []).length ex).length == ps.length) && represents st ex ps

theorem construct_of_setOk {st : List (List ℤ)} {ps : List PExpr} (hu : Lbm.Spec.Unisolvent st ps) (h : setOk st ps = true) :
    ∃ t, construct (st.headD []).length st.length ps = .ok t := by
  simp only [setOk, Bool.and_eq_true, beq_iff_eq] at h
  obtain ⟨⟨⟨h1, h2⟩, h3⟩, h4⟩ := h
  rw [← h2]
  unfold construct
  simp only [h1, h3, ne_eq, not_true_eq_false, if_false]
  rw [MomentMethod.pyInv, if_neg (det_ne_zero hu h1 h4)]
  exact ⟨_, rfl⟩

theorem default_check : ∀ e ∈ Tables.predefined, (match defaultMomentSet (e.2.2.headD []).length e.2.2.length with
    | none => true
    | some ps => if e.1 = "D3Q15" then (Chimera.extractMonomials 3 ps).length == 20 else setOk e.2.2 ps) = true := by
  decide +kernel

theorem cascaded_check : ∀ e ∈ Tables.predefined, (match cascadedMomentSets e.2.2 with
    | none => true
    | some g => if e.1 = "D3Q15" then (Chimera.extractMonomials 3 g.flatten).length == 23 else setOk e.2.2 g.flatten) = true := by
  decide +kernel

/-- C51: with the default and the cascaded sets the constructor succeeds for every predefined stencil, except for D3Q15,
where the polynomials have more than 15 monomials and `ValueError` is raised -/
theorem C51_offered_sets : ∀ e ∈ Tables.predefined,
    (∀ ps ∈ defaultMomentSet (e.2.2.headD []).length e.2.2.length,
      if e.1 = "D3Q15" then construct (e.2.2.headD []).length e.2.2.length ps = .error .valueError
      else ∃ t, construct (e.2.2.headD []).length e.2.2.length ps = .ok t) ∧
    ∀ g ∈ cascadedMomentSets e.2.2,
      if e.1 = "D3Q15" then construct (e.2.2.headD []).length e.2.2.length g.flatten = .error .valueError
      else ∃ t, construct (e.2.2.headD []).length e.2.2.length g.flatten = .ok t := by
  have hQ : ∀ e ∈ Tables.predefined, e.1 = "D3Q15" → (e.2.2.headD []).length = 3 ∧ e.2.2.length = 15 := by decide +kernel
  have herr : ∀ ps n, n ≠ 15 → (Chimera.extractMonomials 3 ps).length = n → construct 3 15 ps = .error .valueError := by
    intro ps n hn h
    unfold construct
    simp only [h]
    rw [if_pos hn]
  intro e he
  constructor
  · intro ps hps
    have h := default_check e he
    rw [Option.mem_def.mp hps] at h
    simp only at h
    split
    · rename_i h15
      rw [if_pos h15] at h
      rw [(hQ e he h15).1, (hQ e he h15).2]
      exact herr ps 20 (by decide) (beq_iff_eq.mp h)
    · rename_i h15
      rw [if_neg h15] at h
      exact construct_of_setOk ((C47_moment_sets_are_bases e he).1 ps hps) h
  · intro g hg
    have h := cascaded_check e he
    rw [Option.mem_def.mp hg] at h
    simp only at h
    split
    · rename_i h15
      rw [if_pos h15] at h
      rw [(hQ e he h15).1, (hQ e he h15).2]
      exact herr _ 23 (by decide) (beq_iff_eq.mp h)
    · rename_i h15
      rw [if_neg h15] at h
      exact construct_of_setOk ((C47_moment_sets_are_bases e he).2.1 g hg) h

/-! ### Examples -/

/-- central moments about the mean: positive density, vanishing first order, non-zero second order -/
example : ∃ kappa : (Fin 2 → ℕ) → ℝ, kappa 0 ≠ 0 ∧ 0 < kappa 0 ∧ (∀ a, kappa (blockIndex [a]) = 0) ∧
    kappa (blockIndex [0, 1]) ≠ 0 := by
  refine ⟨fun i => if IsFirstOrder i then 0 else 2, ?_, ?_, ?_, ?_⟩
  · beta_reduce; rw [if_neg (by decide)]; norm_num
  · beta_reduce; rw [if_neg (by decide)]; norm_num
  · intro a
    beta_reduce
    rw [if_pos ⟨a, blockIndex_single a⟩]
  · beta_reduce; rw [if_neg (by decide)]; norm_num

/-- a constructor call that succeeds: D2Q9 with the cascaded set -/
example : ∃ ps : List PExpr, ∃ t, construct 2 9 ps = .ok t ∧ (0 : ℝ) < (fun _ : List ℕ => (1 : ℝ)) (List.replicate 2 0) := by
  obtain ⟨t, ht⟩ : ∃ t, construct 2 9 (([[1], [.x, .y], [.x * .y, .x ^ 2 - .y ^ 2], [.x ^ 2 + .y ^ 2], [.x ^ 2 * .y, .x * .y ^ 2],
      [.x ^ 2 * .y ^ 2]] : List (List PExpr)).flatten) = .ok t := by
    have h := (C51_offered_sets ("D2Q9", "walberla", (Tables.lookup "D2Q9" "walberla").getD []) (by decide +kernel)).2
      [[1], [.x, .y], [.x * .y, .x ^ 2 - .y ^ 2], [.x ^ 2 + .y ^ 2], [.x ^ 2 * .y, .x * .y ^ 2], [.x ^ 2 * .y ^ 2]]
      (by decide +kernel)
    rw [if_neg (by decide)] at h
    exact h
  exact ⟨_, t, ht, by norm_num⟩

/-- a set that is not closed downwards is rejected -/
example : construct 1 3 [1, .x, .x ^ 3] = .error .assertion := by
  have h1 : (Chimera.extractMonomials 1 [1, .x, .x ^ 3]).length = 3 := by decide +kernel
  have h2 : (requiredCentralMoments 1 (Chimera.extractMonomials 1 [1, .x, .x ^ 3])).length = 4 := by decide +kernel
  unfold construct
  simp only [h1, h2]
  rfl

/-- populations of non-zero density -/
example : let S : Stencil 1 := ⟨3, ![![0], ![1], ![-1]]⟩
    let f : Fin S.Q → ℝ := ![1, 2, 1]
    (∑ q, f q) ≠ 0 := by
  intro S f
  have hs : ∑ q, f q = 1 + 2 + 1 := Fin.sum_univ_three (f := (f : Fin 3 → ℝ))
  rw [hs]; norm_num

end CumulantTransform
end Lbm
