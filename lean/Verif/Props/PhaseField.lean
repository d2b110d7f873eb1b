import Verif.PhaseField
import Verif.Props.AllenCahn
import Mathlib.Data.String.Basic
import Mathlib.Data.List.Sort

/-!
# Properties of the multi-phase free energies

C63: the free energy of N phases does not depend on which phase is eliminated; the profile between any two phases makes
all chemical potentials vanish and has the given surface tension as energy.
-/

namespace Lbm
namespace PhaseField

open scoped BigOperators
open MeasureTheory

/-! ## Specification -/

/-- A composition of all phases in which phase `k` takes the part `c` and phase `l` the rest. -/
def pairOf {N : ℕ} (k l : Fin N) (c : ℝ) (m : Fin N) : ℝ := if m = k then c else if m = l then 1 - c else 0

/-- The order parameters of a composition: all phases but the last. -/
def orderParameters {n : ℕ} (c : Fin (n + 1) → ℝ) (i : Fin n) : ℝ := c i.castSucc

/-- The variational derivative of the energy with respect to one phase, all phases being independent. -/
noncomputable def variation {N : ℕ} (tension : Fin N → Fin N → ℝ) (width : ℝ) (c lap : Fin N → ℝ) (i : Fin N) : ℝ :=
  ∑ j, tension i j * (3 / (2 * width) * (deriv doubleWell (c i) - deriv doubleWell (c i + c j)) + 3 * width * lap j)

/-! ## Helpers -/

theorem allPhases_orderParameters {n : ℕ} (c : Fin (n + 1) → ℝ) (hc : ∑ m, c m = 1) :
    allPhases (orderParameters c) = c := by
  funext m
  unfold allPhases
  refine Fin.lastCases ?_ (fun i => ?_) m
  · rw [Fin.snoc_last]
    rw [Fin.sum_univ_castSucc] at hc
    unfold orderParameters
    linarith
  · rw [Fin.snoc_castSucc]
    rfl

theorem coef_inv (w : ℝ) : 3 / Real.sqrt 2 / (w * Real.sqrt 2) = 3 / (2 * w) := by
  have h : Real.sqrt 2 * Real.sqrt 2 = 2 := Real.mul_self_sqrt (by norm_num)
  rw [div_div, show Real.sqrt 2 * (w * Real.sqrt 2) = (Real.sqrt 2 * Real.sqrt 2) * w by ring, h]

theorem coef_mul (w : ℝ) : 3 / Real.sqrt 2 * (w * Real.sqrt 2) = 3 * w := by
  have h : Real.sqrt 2 ≠ 0 := (Real.sqrt_pos.2 (by norm_num)).ne'
  field_simp

theorem interface_symmetric {n D : ℕ} (tension : Fin (n + 1) → Fin (n + 1) → ℝ)
    (hs : ∀ i j, tension i j = tension j i) (h0 : ∀ i, tension i i = 0) (w : ℝ) (g : Fin (n + 1) → Fin D → ℝ)
    (hg : ∀ a, ∑ m, g m a = 0) :
    interfaceEnergyN tension w (fun i => g i.castSucc)
      = -(3 * w / 2) * ∑ i, ∑ j, tension i j * ∑ a, g i a * g j a := by
  have hl : ∀ a, g (Fin.last n) a = -∑ i : Fin n, g i.castSucc a := by
    intro a
    have := hg a
    rw [Fin.sum_univ_castSucc] at this
    linarith
  have hdot : ∀ i : Fin n, ∑ a, g i.castSucc a * g (Fin.last n) a
      = -∑ j : Fin n, ∑ a, g i.castSucc a * g j.castSucc a := by
    intro i
    rw [Finset.sum_comm, ← Finset.sum_neg_distrib]
    refine Finset.sum_congr rfl fun a _ => ?_
    rw [hl, mul_neg, Finset.mul_sum]
  set G : Fin (n + 1) → Fin (n + 1) → ℝ := fun i j => ∑ a, g i a * g j a with hG
  have hGs : ∀ i j, G i j = G j i := fun i j => Finset.sum_congr rfl fun a _ => mul_comm _ _
  have hdot' : ∀ i : Fin n, G i.castSucc (Fin.last n) = -∑ j : Fin n, G i.castSucc j.castSucc := hdot
  unfold interfaceEnergyN lambdaCoeff
  simp only [coef_mul]
  rw [Fin.sum_univ_castSucc]
  simp only [Fin.sum_univ_castSucc (n := n), h0, zero_mul, add_zero]
  change ∑ i : Fin n, ∑ j : Fin n, 3 * w * (tension i.castSucc (Fin.last n) + tension j.castSucc (Fin.last n)
      - tension i.castSucc j.castSucc) / 2 * G i.castSucc j.castSucc
    = -(3 * w / 2) * (∑ i : Fin n, (∑ j : Fin n, tension i.castSucc j.castSucc * G i.castSucc j.castSucc
        + tension i.castSucc (Fin.last n) * G i.castSucc (Fin.last n))
      + ∑ j : Fin n, tension (Fin.last n) j.castSucc * G (Fin.last n) j.castSucc)
  have e1 : ∑ j : Fin n, tension (Fin.last n) j.castSucc * G (Fin.last n) j.castSucc
      = ∑ i : Fin n, tension i.castSucc (Fin.last n) * G i.castSucc (Fin.last n) :=
    Finset.sum_congr rfl fun i _ => by rw [hs, hGs]
  have e2 : ∑ i : Fin n, tension i.castSucc (Fin.last n) * G i.castSucc (Fin.last n)
      = -∑ i : Fin n, ∑ j : Fin n, tension i.castSucc (Fin.last n) * G i.castSucc j.castSucc := by
    rw [← Finset.sum_neg_distrib]
    refine Finset.sum_congr rfl fun i _ => ?_
    rw [hdot', mul_neg, Finset.mul_sum]
  have e3 : ∑ i : Fin n, ∑ j : Fin n, tension j.castSucc (Fin.last n) * G i.castSucc j.castSucc
      = ∑ i : Fin n, ∑ j : Fin n, tension i.castSucc (Fin.last n) * G i.castSucc j.castSucc := by
    rw [Finset.sum_comm]
    exact Finset.sum_congr rfl fun i _ => Finset.sum_congr rfl fun j _ => by rw [hGs]
  have e0 : ∑ i : Fin n, ∑ j : Fin n, 3 * w * (tension i.castSucc (Fin.last n) + tension j.castSucc (Fin.last n)
      - tension i.castSucc j.castSucc) / 2 * G i.castSucc j.castSucc
      = 3 * w / 2 * (∑ i : Fin n, ∑ j : Fin n, tension i.castSucc (Fin.last n) * G i.castSucc j.castSucc
        + ∑ i : Fin n, ∑ j : Fin n, tension j.castSucc (Fin.last n) * G i.castSucc j.castSucc
        - ∑ i : Fin n, ∑ j : Fin n, tension i.castSucc j.castSucc * G i.castSucc j.castSucc) := by
    rw [← Finset.sum_add_distrib, ← Finset.sum_sub_distrib, Finset.mul_sum]
    refine Finset.sum_congr rfl fun i _ => ?_
    rw [← Finset.sum_add_distrib, ← Finset.sum_sub_distrib, Finset.mul_sum]
    exact Finset.sum_congr rfl fun j _ => by ring
  rw [e0, e3, e1, Finset.sum_add_distrib, e2]
  ring

theorem bulk_sum {n : ℕ} (tension : Fin (n + 1) → Fin (n + 1) → ℝ) (h0 : ∀ i, tension i i = 0) (w : ℝ)
    (f1 f2 : ℝ → ℝ) (c : Fin (n + 1) → ℝ) (hc : ∑ m, c m = 1) :
    bulkEnergyN tension w f1 f2 0 (orderParameters c)
      = 3 / (2 * w) * ∑ i, ∑ j, tension i j / 2 * (f1 (c i) + f1 (c j) - f2 (c i + c j)) := by
  unfold bulkEnergyN
  rw [allPhases_orderParameters c hc, coef_inv]
  simp only [zero_mul, ite_self, Finset.sum_const_zero, add_zero]
  congr 1
  refine Finset.sum_congr rfl fun i _ => Finset.sum_congr rfl fun j _ => ?_
  by_cases h : i = j
  · simp [h, h0]
  · simp [h]

theorem hasDerivAt_doubleWell (c : ℝ) : HasDerivAt doubleWell (2 * c * (1 - c) * (1 - 2 * c)) c := by
  have h := ((hasDerivAt_id c).pow 2).mul (((hasDerivAt_id c).const_sub 1).pow 2)
  refine h.congr_deriv ?_
  simp
  ring

theorem deriv_doubleWell (c : ℝ) : deriv doubleWell c = 2 * c * (1 - c) * (1 - 2 * c) := (hasDerivAt_doubleWell c).deriv

theorem analyticProfile_eq (w x : ℝ) : analyticProfile w x = AllenCahn.profile (4 * w) x := by
  unfold analyticProfile AllenCahn.profile
  congr 3
  rw [show (4 : ℝ) * w = 2 * (2 * w) by ring, mul_div_mul_left _ _ (by norm_num)]

theorem analyticProfile_fun (w : ℝ) : analyticProfile w = AllenCahn.profile (4 * w) :=
  funext (analyticProfile_eq w)

theorem deriv_analyticProfile {w : ℝ} (hw : w ≠ 0) (x : ℝ) :
    HasDerivAt (analyticProfile w) (analyticProfile w x * (1 - analyticProfile w x) / w) x := by
  have h := AllenCahn.hasDerivAt_profile (W := 4 * w) (by positivity) x
  rw [analyticProfile_fun]
  refine h.congr_deriv ?_
  field_simp
  ring

theorem deriv2_analyticProfile {w : ℝ} (hw : w ≠ 0) (x : ℝ) :
    deriv (deriv (analyticProfile w)) x = deriv doubleWell (analyticProfile w x) / (2 * w ^ 2) := by
  have hd : deriv (analyticProfile w) = fun x => analyticProfile w x * (1 - analyticProfile w x) / w :=
    funext fun x => (deriv_analyticProfile hw x).deriv
  rw [hd, deriv_doubleWell]
  have h := deriv_analyticProfile hw x
  have h2 := (h.mul (h.const_sub 1)).div_const w
  rw [HasDerivAt.deriv (f := fun x => analyticProfile w x * (1 - analyticProfile w x) / w) h2]
  field_simp
  ring

theorem sum_pairOf {N : ℕ} {k l : Fin N} (h : k ≠ l) (c : ℝ) : ∑ m, pairOf k l c m = 1 := by
  have e : ∀ m, pairOf k l c m = (if m = k then c else 0) + if m = l then 1 - c else 0 := by
    intro m
    unfold pairOf
    by_cases h1 : m = k
    · subst h1
      simp [h]
    · simp [h1]
  simp only [e, Finset.sum_add_distrib, Finset.sum_ite_eq', Finset.mem_univ, if_true]
  ring

theorem hasDerivAt_bulk {n : ℕ} (tension : Fin (n + 1) → Fin (n + 1) → ℝ) (hs : ∀ i j, tension i j = tension j i)
    (h0 : ∀ i, tension i i = 0) (w : ℝ) (c : Fin (n + 1) → ℝ) (hc : ∑ m, c m = 1) (i : Fin n) :
    deriv (fun t => bulkEnergyN tension w doubleWell doubleWell 0 (Function.update (orderParameters c) i t))
        (orderParameters c i)
      = 3 / (2 * w) * (∑ j, tension i.castSucc j * (deriv doubleWell (c i.castSucc)
            - deriv doubleWell (c i.castSucc + c j))
          - ∑ j, tension (Fin.last n) j * (deriv doubleWell (c (Fin.last n))
            - deriv doubleWell (c (Fin.last n) + c j))) := by
  set e : Fin (n + 1) → ℝ := fun m => (if m = i.castSucc then 1 else 0) - if m = Fin.last n then 1 else 0 with he
  set γ : ℝ → Fin (n + 1) → ℝ := fun t m => c m + (t - c i.castSucc) * e m with hγ
  have hne : i.castSucc ≠ Fin.last n := (Fin.castSucc_lt_last i).ne
  have hsum : ∑ m, e m = 0 := by simp [he, Finset.sum_sub_distrib]
  have hγ1 : ∀ t, ∑ m, γ t m = 1 := by
    intro t
    simp only [hγ, Finset.sum_add_distrib, ← Finset.mul_sum, hsum, hc]
    ring
  have hupd : ∀ t, Function.update (orderParameters c) i t = orderParameters (γ t) := by
    intro t
    funext k
    by_cases hk : k = i
    · subst hk
      simp [orderParameters, hγ, he, hne]
    · have h1 : k.castSucc ≠ i.castSucc := fun h => hk (Fin.castSucc_injective n h)
      have h2 : k.castSucc ≠ Fin.last n := (Fin.castSucc_lt_last k).ne
      simp [orderParameters, hγ, he, hk, h1, h2]
  have hfun : (fun t => bulkEnergyN tension w doubleWell doubleWell 0 (Function.update (orderParameters c) i t))
      = fun t => 3 / (2 * w) * ∑ a, ∑ b, tension a b / 2
          * (doubleWell (γ t a) + doubleWell (γ t b) - doubleWell (γ t a + γ t b)) := by
    funext t
    rw [hupd, bulk_sum tension h0 w _ _ _ (hγ1 t)]
  have hγd : ∀ m t, HasDerivAt (fun t => γ t m) (e m) t := by
    intro m t
    have := (((hasDerivAt_id t).sub_const (c i.castSucc)).mul_const (e m)).const_add (c m)
    exact this.congr_deriv (one_mul _)
  have hγ0 : ∀ m, γ (c i.castSucc) m = c m := by
    intro m
    simp [hγ]
  have hD : HasDerivAt (fun t => 3 / (2 * w) * ∑ a, ∑ b, tension a b / 2
      * (doubleWell (γ t a) + doubleWell (γ t b) - doubleWell (γ t a + γ t b)))
      (3 / (2 * w) * ∑ a, ∑ b, tension a b / 2 * (deriv doubleWell (c a) * e a + deriv doubleWell (c b) * e b
        - deriv doubleWell (c a + c b) * (e a + e b))) (c i.castSucc) := by
    refine HasDerivAt.const_mul _ (HasDerivAt.fun_sum fun a _ => HasDerivAt.fun_sum fun b _ => ?_)
    refine HasDerivAt.const_mul _ ?_
    have h1 : ∀ m, HasDerivAt (fun t => doubleWell (γ t m)) (deriv doubleWell (c m) * e m) (c i.castSucc) := by
      intro m
      have hw := hasDerivAt_doubleWell (γ (c i.castSucc) m)
      have := hw.comp (c i.castSucc) (hγd m (c i.castSucc))
      rw [deriv_doubleWell, ← hγ0 m]
      exact this
    have h2 : HasDerivAt (fun t => doubleWell (γ t a + γ t b)) (deriv doubleWell (c a + c b) * (e a + e b))
        (c i.castSucc) := by
      have hw := hasDerivAt_doubleWell (γ (c i.castSucc) a + γ (c i.castSucc) b)
      have := HasDerivAt.comp (h₂ := doubleWell) (h := fun t => γ t a + γ t b) (c i.castSucc) hw
        ((hγd a (c i.castSucc)).add (hγd b (c i.castSucc)))
      rw [deriv_doubleWell, ← hγ0 a, ← hγ0 b]
      exact this
    exact ((h1 a).add (h1 b)).sub h2
  have hval : ∑ a, ∑ b, tension a b / 2 * (deriv doubleWell (c a) * e a + deriv doubleWell (c b) * e b
        - deriv doubleWell (c a + c b) * (e a + e b))
      = ∑ a, e a * ∑ b, tension a b * (deriv doubleWell (c a) - deriv doubleWell (c a + c b)) := by
    have hsplit : ∀ a b, tension a b / 2 * (deriv doubleWell (c a) * e a + deriv doubleWell (c b) * e b
        - deriv doubleWell (c a + c b) * (e a + e b))
        = tension a b / 2 * (deriv doubleWell (c a) - deriv doubleWell (c a + c b)) * e a
          + tension b a / 2 * (deriv doubleWell (c b) - deriv doubleWell (c b + c a)) * e b := by
      intro a b
      rw [hs b a, add_comm (c b) (c a)]
      ring
    simp only [hsplit, Finset.sum_add_distrib]
    rw [Finset.sum_comm (f := fun a b => tension b a / 2 * (deriv doubleWell (c b) - deriv doubleWell (c b + c a)) * e b),
      ← Finset.sum_add_distrib]
    refine Finset.sum_congr rfl fun a _ => ?_
    rw [← Finset.sum_add_distrib, Finset.mul_sum]
    exact Finset.sum_congr rfl fun b _ => by ring
  rw [hfun]
  change deriv _ (c i.castSucc) = _
  rw [hD.deriv, hval]
  congr 1
  simp only [he, sub_mul, ite_mul, one_mul, zero_mul, Finset.sum_sub_distrib, Finset.sum_ite_eq', Finset.mem_univ,
    if_true]

/-! ## C63 -/

/-- **C63.** The energy does not depend on which of the phases is the eliminated one, nor on their numbering: permuting
the phases together with their surface tensions does not change it.  `f1`, `f2` are arbitrary. -/
theorem C63_phase_symmetry {n D : ℕ} (tension : Fin (n + 1) → Fin (n + 1) → ℝ)
    (hs : ∀ i j, tension i j = tension j i) (h0 : ∀ i, tension i i = 0) (w : ℝ) (f1 f2 : ℝ → ℝ) (bulk interface : Bool)
    (c : Fin (n + 1) → ℝ) (hc : ∑ m, c m = 1) (g : Fin (n + 1) → Fin D → ℝ) (hg : ∀ a, ∑ m, g m a = 0)
    (π : Equiv.Perm (Fin (n + 1))) :
    freeEnergyN (fun i j => tension (π i) (π j)) w f1 f2 0 bulk interface (orderParameters (c ∘ π))
        (fun i => g (π i.castSucc))
      = freeEnergyN tension w f1 f2 0 bulk interface (orderParameters c) (fun i => g i.castSucc) := by
  have hc' : ∑ m, (c ∘ π) m = 1 := by
    rw [← hc]
    exact Equiv.sum_comp π c
  have hg' : ∀ a, ∑ m, g (π m) a = 0 := by
    intro a
    rw [← hg a]
    exact Equiv.sum_comp π fun m => g m a
  have n1 : ¬∃ l : Fin n, tension (π l.castSucc) (π l.castSucc) ≠ 0 := by simp [h0]
  have n2 : ¬∃ l : Fin n, tension l.castSucc l.castSucc ≠ 0 := by simp [h0]
  unfold freeEnergyN
  rw [if_neg n1, if_neg n2, bulk_sum (fun i j => tension (π i) (π j)) (fun i => h0 _) w f1 f2 _ hc',
    bulk_sum tension h0 w f1 f2 _ hc, interface_symmetric tension hs h0 w g hg,
    interface_symmetric (fun i j => tension (π i) (π j)) (fun i j => hs _ _) (fun i => h0 _) w (fun m => g (π m)) hg']
  have e : ∀ F : Fin (n + 1) → Fin (n + 1) → ℝ, ∑ i, ∑ j, F (π i) (π j) = ∑ i, ∑ j, F i j := by
    intro F
    rw [← Equiv.sum_comp π (fun i => ∑ j, F i j)]
    exact Finset.sum_congr rfl fun i _ => Equiv.sum_comp π (F (π i))
  have e1 := e fun i j => tension i j / 2 * (f1 (c i) + f1 (c j) - f2 (c i + c j))
  have e2 := e fun i j => tension i j * ∑ a, g i a * g j a
  simp only [Function.comp_apply]
  rw [e1, e2]

/-- **C63.** The chemical potential of an order parameter is the variation of its phase minus that of the eliminated
one, for every composition and every second derivatives that add up to zero. -/
theorem C63_chemical_potential {n : ℕ} (tension : Fin (n + 1) → Fin (n + 1) → ℝ)
    (hs : ∀ i j, tension i j = tension j i) (h0 : ∀ i, tension i i = 0) (w : ℝ) (c lap : Fin (n + 1) → ℝ)
    (hc : ∑ m, c m = 1) (hl : ∑ m, lap m = 0) (i : Fin n) :
    chemicalPotentialN tension w doubleWell doubleWell 0 (orderParameters c) (orderParameters lap) i
      = variation tension w c lap i.castSucc - variation tension w c lap (Fin.last n) := by
  unfold chemicalPotentialN variation
  rw [hasDerivAt_bulk tension hs h0 w c hc i]
  have hlast : lap (Fin.last n) = -∑ j : Fin n, lap j.castSucc := by
    rw [Fin.sum_univ_castSucc] at hl
    linarith
  have hL : ∑ j : Fin n, (lambdaCoeff tension w i j + lambdaCoeff tension w j i) / 2 * orderParameters lap j
      = -(3 * w * (∑ j, tension i.castSucc j * lap j - ∑ j, tension (Fin.last n) j * lap j)) := by
    unfold lambdaCoeff orderParameters
    simp only [coef_mul]
    rw [Fin.sum_univ_castSucc (f := fun j => tension i.castSucc j * lap j),
      Fin.sum_univ_castSucc (f := fun j => tension (Fin.last n) j * lap j), h0, hlast, mul_neg, Finset.mul_sum]
    rw [show ∀ A B C : ℝ, -(3 * w * (A + -B - (C + 0 * -∑ j : Fin n, lap j.castSucc)))
      = 3 * w * (B + C - A) from fun A B C => by ring]
    rw [← Finset.sum_add_distrib, ← Finset.sum_sub_distrib, Finset.mul_sum]
    refine Finset.sum_congr rfl fun j _ => ?_
    rw [hs j.castSucc i.castSucc, hs (Fin.last n) j.castSucc]
    ring
  rw [hL]
  simp only [mul_add, Finset.sum_add_distrib, mul_sub, Finset.sum_sub_distrib, Finset.mul_sum, mul_left_comm]
  ring

/-- **C63.** The interface between any two of the phases is in equilibrium: along the analytic profile the chemical
potentials of all order parameters vanish, those of absent phases included. -/
theorem C63_equilibrium {n : ℕ} (tension : Fin (n + 1) → Fin (n + 1) → ℝ) (hs : ∀ i j, tension i j = tension j i)
    (h0 : ∀ i, tension i i = 0) {w : ℝ} (hw : 0 < w) {k l : Fin (n + 1)} (hkl : k ≠ l) (x : ℝ) (i : Fin n) :
    chemicalPotentialN tension w doubleWell doubleWell 0 (orderParameters (pairOf k l (analyticProfile w x)))
      (orderParameters fun m => deriv (deriv fun y => pairOf k l (analyticProfile w y) m) x) i = 0 := by
  set p := analyticProfile w x with hp
  set q := deriv doubleWell p / (2 * w ^ 2) with hq
  have hlap : (fun m => deriv (deriv fun y => pairOf k l (analyticProfile w y) m) x)
      = fun m => (if m = k then q else 0) - if m = l then q else 0 := by
    funext m
    unfold pairOf
    by_cases h1 : m = k
    · subst h1
      simp only [if_true, hkl, if_false, sub_zero]
      exact deriv2_analyticProfile hw.ne' x
    · by_cases h2 : m = l
      · subst h2
        simp only [h1, if_false, if_true, zero_sub]
        have e : (deriv fun y => 1 - analyticProfile w y) = fun y => -deriv (analyticProfile w) y := by
          funext y
          exact ((deriv_analyticProfile hw.ne' y).const_sub 1).deriv.trans
            (by rw [(deriv_analyticProfile hw.ne' y).deriv])
        rw [e]
        change deriv (-deriv (analyticProfile w)) x = -q
        rw [deriv.neg, deriv2_analyticProfile hw.ne' x]
      · simp [h1, h2]
  rw [hlap]
  have hv : ∀ m, variation tension w (pairOf k l p) (fun m => (if m = k then q else 0) - if m = l then q else 0) m
      = 0 := by
    intro m
    unfold variation
    have hcancel : 3 / (2 * w) * deriv doubleWell p = 3 * w * q := by
      rw [hq]
      field_simp
    have hd0 : deriv doubleWell 0 = 0 := by rw [deriv_doubleWell]; ring
    have hd1 : deriv doubleWell 1 = 0 := by rw [deriv_doubleWell]; ring
    have hdr : deriv doubleWell (1 - p) = -deriv doubleWell p := by
      rw [deriv_doubleWell, deriv_doubleWell]; ring
    have hterm : ∀ j, tension m j * (3 / (2 * w) * (deriv doubleWell (pairOf k l p m)
        - deriv doubleWell (pairOf k l p m + pairOf k l p j))
        + 3 * w * ((if j = k then q else 0) - if j = l then q else 0)) = 0 := by
      intro j
      by_cases hmj : m = j
      · subst hmj
        rw [h0, zero_mul]
      · refine mul_eq_zero_of_right _ ?_
        rw [mul_sub (3 / (2 * w)), mul_sub (3 * w)]
        unfold pairOf
        by_cases m1 : m = k <;> by_cases m2 : m = l <;> by_cases j1 : j = k <;> by_cases j2 : j = l <;>
          simp_all <;> linarith
    exact Finset.sum_eq_zero fun j _ => hterm j
  rw [C63_chemical_potential tension hs h0 w _ _ (sum_pairOf hkl p)
    (by simp [Finset.sum_sub_distrib]) i, hv, hv, sub_zero]

/-- **C63.** The given surface tension is the energy of the interface: for any two of the phases, the free energy
integrated across the analytic profile is their entry of the surface tensions. -/
theorem C63_surface_tension {n : ℕ} (tension : Fin (n + 1) → Fin (n + 1) → ℝ) (hs : ∀ i j, tension i j = tension j i)
    (h0 : ∀ i, tension i i = 0) {w : ℝ} (hw : 0 < w) {k l : Fin (n + 1)} (hkl : k ≠ l) :
    ∃ F : ℝ → ℝ, (∀ x, freeEnergyN (D := 1) tension w doubleWell doubleWell 0 true true
        (orderParameters (pairOf k l (analyticProfile w x)))
        (fun i _ => deriv (fun y => pairOf k l (analyticProfile w y) i.castSucc) x) = .ok (F x))
      ∧ Integrable F ∧ ∫ x, F x = tension k l := by
  have hgrad : ∀ x m, deriv (fun y => pairOf k l (analyticProfile w y) m) x
      = deriv (analyticProfile w) x * ((if m = k then 1 else 0) - if m = l then 1 else 0) := by
    intro x m
    unfold pairOf
    by_cases h1 : m = k
    · subst h1
      simp [hkl]
    · by_cases h2 : m = l
      · subst h2
        simp only [h1, if_false, if_true]
        rw [((deriv_analyticProfile hw.ne' x).const_sub 1).deriv, (deriv_analyticProfile hw.ne' x).deriv]
        ring
      · simp [h1, h2]
  obtain ⟨hI, hV⟩ := AllenCahn.integral_deriv_sq (W := 4 * w) (by linarith)
  refine ⟨fun x => 6 * w * tension k l * deriv (AllenCahn.profile (4 * w)) x ^ 2, fun x => ?_, hI.const_mul _, ?_⟩
  · unfold freeEnergyN
    rw [if_neg (by simp [h0])]
    simp only [if_true]
    congr 1
    rw [bulk_sum tension h0 w _ _ _ (sum_pairOf hkl _)]
    have hg0 : ∀ _a : Fin 1, ∑ m, deriv (analyticProfile w) x * ((if m = k then (1 : ℝ) else 0) - if m = l then 1 else 0)
        = 0 := by
      intro _
      simp [← Finset.mul_sum, Finset.sum_sub_distrib]
    have hif := interface_symmetric (D := 1) tension hs h0 w
      (fun m _ => deriv (analyticProfile w) x * ((if m = k then 1 else 0) - if m = l then 1 else 0)) hg0
    simp only [hgrad]
    rw [hif]
    set p := analyticProfile w x with hp
    have hd : deriv (analyticProfile w) x = p * (1 - p) / w := (deriv_analyticProfile hw.ne' x).deriv
    rw [← analyticProfile_fun, hd]
    have hb : ∑ i, ∑ j, tension i j / 2 * (doubleWell (pairOf k l p i) + doubleWell (pairOf k l p j)
        - doubleWell (pairOf k l p i + pairOf k l p j)) = tension k l * (2 * doubleWell p) := by
      have d0 : doubleWell 0 = 0 := by simp [doubleWell]
      have d1 : doubleWell 1 = 0 := by simp [doubleWell]
      have dr : doubleWell (1 - p) = doubleWell p := by unfold doubleWell; ring
      have hterm : ∀ i j, tension i j / 2 * (doubleWell (pairOf k l p i) + doubleWell (pairOf k l p j)
          - doubleWell (pairOf k l p i + pairOf k l p j))
          = (if i = k then (if j = l then tension k l * doubleWell p else 0) else 0)
            + if i = l then (if j = k then tension k l * doubleWell p else 0) else 0 := by
        intro i j
        by_cases hij : i = j
        · subst hij
          rw [h0]
          by_cases i1 : i = k <;> by_cases i2 : i = l <;> simp_all
        · unfold pairOf
          by_cases i1 : i = k <;> by_cases i2 : i = l <;> by_cases j1 : j = k <;> by_cases j2 : j = l <;>
            simp_all <;> (try rw [hs l k]) <;> ring
      simp only [hterm, Finset.sum_add_distrib]
      simp
      ring
    have hgg : ∑ i, ∑ j, tension i j * ∑ _a : Fin 1, p * (1 - p) / w * ((if i = k then 1 else 0) - if i = l then 1 else 0)
        * (p * (1 - p) / w * ((if j = k then 1 else 0) - if j = l then 1 else 0))
        = -2 * tension k l * (p * (1 - p) / w) ^ 2 := by
      have hterm : ∀ i j, tension i j * ∑ _a : Fin 1, p * (1 - p) / w * ((if i = k then 1 else 0) - if i = l then 1 else 0)
          * (p * (1 - p) / w * ((if j = k then 1 else 0) - if j = l then 1 else 0))
          = (p * (1 - p) / w) ^ 2 * ((if i = k then (if j = k then tension i j else 0) else 0)
            - (if i = k then (if j = l then tension i j else 0) else 0)
            - (if i = l then (if j = k then tension i j else 0) else 0)
            + if i = l then (if j = l then tension i j else 0) else 0) := by
        intro i j
        rw [Fin.sum_univ_one]
        split_ifs <;> ring
      simp only [hterm]
      simp only [← Finset.mul_sum, Finset.sum_add_distrib, Finset.sum_sub_distrib]
      simp [h0, hs l k]
      ring
    rw [hb, hgg]
    unfold doubleWell
    field_simp
    ring
  · rw [integral_const_mul, hV]
    field_simp
    ring

example : ∃ F : ℝ → ℝ, (∀ x, freeEnergyN (n := 3) (D := 1) (scalarTension (1 / 100)) 1 doubleWell doubleWell 0 true true
      (orderParameters (pairOf 1 2 (analyticProfile 1 x)))
      (fun i _ => deriv (fun y => pairOf 1 2 (analyticProfile 1 y) i.castSucc) x) = .ok (F x))
    ∧ Integrable F ∧ ∫ x, F x = 1 / 100 := by
  have h := C63_surface_tension (n := 3) (scalarTension (1 / 100))
    (fun i j => by simp [scalarTension, eq_comm]) (fun i => by simp [scalarTension]) one_pos (k := 1) (l := 2)
    (by decide)
  have e : scalarTension (1 / 100) (1 : Fin 4) 2 = 1 / 100 := by
    unfold scalarTension
    rw [if_pos (by decide)]
  rwa [e] at h

example : chemicalPotentialN (n := 3) (scalarTension (1 / 100)) 1 doubleWell doubleWell 0
    (orderParameters (pairOf 1 2 (analyticProfile 1 5)))
    (orderParameters fun m => deriv (deriv fun y => pairOf 1 2 (analyticProfile 1 y) m) 5) 0 = 0 :=
  C63_equilibrium _ (fun i j => by simp [scalarTension, eq_comm]) (fun i => by simp [scalarTension]) one_pos (by decide)
    5 0

/-- **C63.** A surface tension of a phase with itself is refused, unless the phase is the eliminated one. -/
theorem C63_refused {n D : ℕ} (tension : Fin (n + 1) → Fin (n + 1) → ℝ) (w : ℝ) (f1 f2 : ℝ → ℝ) (triple : ℝ)
    (bulk interface : Bool) (phi : Fin n → ℝ) (g : Fin n → Fin D → ℝ) :
    ((∃ m, m ≠ Fin.last n ∧ tension m m ≠ 0) ↔
      freeEnergyN tension w f1 f2 triple bulk interface phi g = .error .assertion)
    ∧ ((∀ m, m ≠ Fin.last n → tension m m = 0) →
      ∃ e, freeEnergyN tension w f1 f2 triple bulk interface phi g = .ok e) := by
  have h : (∃ l : Fin n, tension l.castSucc l.castSucc ≠ 0) ↔ ∃ m, m ≠ Fin.last n ∧ tension m m ≠ 0 := by
    constructor
    · rintro ⟨l, hl⟩
      exact ⟨_, (Fin.castSucc_lt_last l).ne, hl⟩
    · rintro ⟨m, hm, ht⟩
      obtain ⟨l, rfl⟩ := Fin.exists_castSucc_eq.2 hm
      exact ⟨l, ht⟩
  unfold freeEnergyN
  constructor
  · rw [← h]
    by_cases hx : ∃ l : Fin n, tension l.castSucc l.castSucc ≠ 0
    · rw [if_pos hx]
      exact ⟨fun _ => rfl, fun _ => hx⟩
    · rw [if_neg hx]
      exact ⟨fun h => absurd h hx, fun h => by simp at h⟩
  · intro hz
    have hx : ¬∃ l : Fin n, tension l.castSucc l.castSucc ≠ 0 := by
      rw [h]
      rintro ⟨m, hm, ht⟩
      exact ht (hz m hm)
    exact ⟨_, if_neg hx⟩

/-- **C63.** The triple point energy does not act where at most two phases are present. -/
theorem C63_triple_point {n : ℕ} (tension : Fin (n + 1) → Fin (n + 1) → ℝ) (w : ℝ) (f1 f2 : ℝ → ℝ) (triple : ℝ)
    {k l : Fin (n + 1)} (hkl : k ≠ l) (c : ℝ) :
    bulkEnergyN tension w f1 f2 triple (orderParameters (pairOf k l c))
      = bulkEnergyN tension w f1 f2 0 (orderParameters (pairOf k l c)) := by
  unfold bulkEnergyN
  rw [allPhases_orderParameters _ (sum_pairOf hkl c)]
  congr 1
  refine Finset.sum_congr rfl fun i _ => Finset.sum_congr rfl fun j _ => Finset.sum_congr rfl fun m _ => ?_
  by_cases h : j < i ∧ m < j
  · rw [if_pos h, if_pos h]
    have hz : pairOf k l c i = 0 ∨ pairOf k l c j = 0 ∨ pairOf k l c m = 0 := by
      have h1 := h.1.ne
      have h2 := h.2.ne
      have h3 := (h.2.trans h.1).ne
      unfold pairOf
      by_cases i1 : i = k <;> by_cases i2 : i = l <;> by_cases j1 : j = k <;> by_cases j2 : j = l <;>
        by_cases m1 : m = k <;> by_cases m2 : m = l <;> simp_all
    rcases hz with hz | hz | hz <;> simp [hz]
  · rw [if_neg h, if_neg h]

/-- **C63.** The corrected bulk energy is the plain one for every composition with no negative part. -/
theorem C63_correction {n : ℕ} (tension : Fin (n + 1) → Fin (n + 1) → ℝ) (w beta : ℝ) (power : ℕ) (triple : ℝ)
    (c : Fin (n + 1) → ℝ) (hc : ∑ m, c m = 1) (hpos : ∀ m, 0 ≤ c m) :
    bulkEnergyN tension w doubleWell (correctionFunction beta power) triple (orderParameters c)
      = bulkEnergyN tension w doubleWell doubleWell triple (orderParameters c) := by
  unfold bulkEnergyN
  rw [allPhases_orderParameters c hc]
  congr 2
  refine Finset.sum_congr rfl fun i _ => Finset.sum_congr rfl fun j _ => ?_
  by_cases hij : i = j
  · simp [hij]
  · rw [if_pos hij, if_pos hij]
    have hle : c i + c j ≤ 1 := by
      rw [← hc, ← Finset.sum_pair hij]
      exact Finset.sum_le_sum_of_subset_of_nonneg (Finset.subset_univ _) fun m _ _ => hpos m
    have hge : 0 ≤ c i + c j := add_nonneg (hpos i) (hpos j)
    have : correctionFunction beta power (c i + c j) = doubleWell (c i + c j) := by
      unfold correctionFunction
      rw [if_neg (not_lt.2 hge), if_neg (not_lt.2 hle)]
    rw [this]

/-- **C63.** Outside of `[0, 1]` the correction function has, for even powers and a positive factor, the sign that makes
the bulk energy larger. -/
theorem C63_correction_sign {beta : ℝ} (hb : 0 < beta) {power : ℕ} (he : Even power) (c : ℝ)
    (hc : c < 0 ∨ 1 < c) : correctionFunction beta power c < 0 := by
  unfold correctionFunction
  rcases hc with h | h
  · rw [if_pos h, neg_mul, neg_lt_zero]
    exact mul_pos hb (he.pow_pos h.ne)
  · rw [if_neg (by linarith), if_pos h, neg_mul, neg_lt_zero]
    exact mul_pos hb (he.pow_pos (by linarith))

/-- **C63, wrong.** For odd powers the sign is that only on one side: a negative part is rewarded. -/
theorem C63_correction_odd_wrong : 0 < correctionFunction 1 3 (-1) := by
  unfold correctionFunction
  norm_num

/-! ### Three phases -/

/-- **C63.** The concentrations are recovered from the order parameters and the other way round. -/
theorem C63_three_phases_transformation (c : Fin 3 → ℝ) :
    concentrations3 (transformation3 c) = c ∧ transformation3 (concentrations3 c) = c := by
  constructor <;> funext i <;> fin_cases i <;> simp [concentrations3, transformation3] <;> ring

/-- **C63.** The interface between two of three phases has the energy `width (κ_i + κ_j) / 6`, also when the free energy
is written in the transformed order parameters. -/
theorem C63_three_phases_surface_tension (kappa : Fin 3 → ℝ) {w : ℝ} (hw : 0 < w) {k l : Fin 3} (hkl : k ≠ l) :
    Integrable (fun x => freeEnergy3Transformed (D := 1) kappa w true true
        (transformation3 (pairOf k l (analyticProfile w x)))
        (fun i _ => transformation3 (fun m => deriv (fun y => pairOf k l (analyticProfile w y) m) x) i))
      ∧ ∫ x, freeEnergy3Transformed (D := 1) kappa w true true
        (transformation3 (pairOf k l (analyticProfile w x)))
        (fun i _ => transformation3 (fun m => deriv (fun y => pairOf k l (analyticProfile w y) m) x) i)
      = w * (kappa k + kappa l) / 6 := by
  obtain ⟨hI, hV⟩ := AllenCahn.integral_deriv_sq (W := 4 * w) (by linarith)
  have hfun : (fun x => freeEnergy3Transformed (D := 1) kappa w true true
        (transformation3 (pairOf k l (analyticProfile w x)))
        (fun i _ => transformation3 (fun m => deriv (fun y => pairOf k l (analyticProfile w y) m) x) i))
      = fun x => w ^ 2 * (kappa k + kappa l) * deriv (AllenCahn.profile (4 * w)) x ^ 2 := by
    funext x
    unfold freeEnergy3Transformed
    simp only [(C63_three_phases_transformation _).1]
    have hd := (deriv_analyticProfile hw.ne' x).deriv
    have hd1 : deriv (fun y => 1 - analyticProfile w y) x = -(analyticProfile w x * (1 - analyticProfile w x) / w) :=
      ((deriv_analyticProfile hw.ne' x).const_sub 1).deriv
    have hd' : deriv (fun y => analyticProfile w y) x = analyticProfile w x * (1 - analyticProfile w x) / w := hd
    rw [← analyticProfile_fun, hd]
    unfold freeEnergy3
    simp only [if_true, Fin.sum_univ_three, Fin.sum_univ_one, Finset.univ_unique, Finset.sum_singleton]
    fin_cases k <;> fin_cases l <;> simp [pairOf] at hkl ⊢ <;>
      (try rw [hd']) <;> (try rw [hd1]) <;> field_simp <;> ring
  rw [hfun]
  refine ⟨hI.const_mul _, ?_⟩
  rw [integral_const_mul, hV]
  field_simp
  ring

/-- **C63.** The penalty of the penalty term model vanishes exactly for compositions that add up to one. -/
theorem C63_penalty {n D : ℕ} (kappa : Fin n → ℝ) (w : ℝ) {p : ℝ} (hp : 0 < p) (c : Fin n → ℝ)
    (g : Fin n → Fin D → ℝ) :
    freeEnergyPenalty kappa w 0 c g ≤ freeEnergyPenalty kappa w p c g
      ∧ (freeEnergyPenalty kappa w p c g = freeEnergyPenalty kappa w 0 c g ↔ ∑ i, c i = 1) := by
  unfold freeEnergyPenalty
  constructor
  · have := mul_nonneg hp.le (sq_nonneg (1 - ∑ i, c i))
    linarith
  · rw [add_right_inj, zero_mul, mul_eq_zero, or_iff_right hp.ne', sq_eq_zero_iff, sub_eq_zero, eq_comm]

/-! ### The order parameters found by name -/

/-- **C63.** Without a list of order parameters, the potentials of all symbols named `phi…` are returned but that of the
greatest name. -/
theorem C63_default_order_parameters (names : List String) (s : String)
    (hs : s ∈ names.filter fun t => "phi".isPrefixOf t)
    (hmax : ∀ t ∈ names.filter fun t => "phi".isPrefixOf t, t ≤ s) :
    (defaultOrderParameters names ++ [s]).Perm (names.filter fun t => "phi".isPrefixOf t) := by
  unfold defaultOrderParameters
  set L := names.filter fun t => "phi".isPrefixOf t with hL
  set M := L.mergeSort (fun a b => decide (a ≤ b)) with hM
  have hperm : M.Perm L := List.mergeSort_perm _ _
  have hsort : M.Pairwise (fun a b => decide (a ≤ b) = true) :=
    List.pairwise_mergeSort (fun a b c h1 h2 => by
      simp only [decide_eq_true_eq] at *
      exact le_trans h1 h2) (fun a b => by
      simp only [Bool.or_eq_true, decide_eq_true_eq]
      exact le_total a b) L
  have hne : M ≠ [] := by
    intro h
    rw [h] at hperm
    exact absurd (hperm.mem_iff.2 hs) (by simp)
  have hlast : M.getLast hne = s := by
    apply le_antisymm
    · exact hmax _ (hperm.mem_iff.1 (List.getLast_mem hne))
    · have hsM := hperm.mem_iff.2 hs
      rw [← List.dropLast_append_getLast hne] at hsM hsort
      rcases List.mem_append.1 hsM with h | h
      · have := (List.pairwise_append.1 hsort).2.2 s h _ (List.mem_singleton.2 rfl)
        simpa using this
      · rw [List.mem_singleton] at h
        exact h.le
  rw [← hlast, List.dropLast_append_getLast hne]
  exact hperm

/-- **C63, wrong.** The free energy of `N` phases is written in `N - 1` order parameters; without a list of them, the
potential of one is missing. -/
theorem C63_default_order_parameters_wrong (names : List String) (hn : names ≠ [])
    (hphi : ∀ t ∈ names, "phi".isPrefixOf t = true) :
    (defaultOrderParameters names).length + 1 = names.length := by
  unfold defaultOrderParameters
  rw [List.filter_eq_self.2 hphi, List.length_dropLast, List.length_mergeSort]
  have := List.length_pos_of_ne_nil hn
  omega

end PhaseField
end Lbm
