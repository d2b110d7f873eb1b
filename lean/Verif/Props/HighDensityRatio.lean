/-
C87: the free energy of the high density ratio model has its minima at the coexisting densities.

Pressure `p`, coexistence and chemical potential are stated with the equation of state alone; `G` is any antiderivative of `p(r) / r²`.
-/
import Verif.HighDensityRatio
import Verif.Props.Eos
import Mathlib.Analysis.Calculus.Deriv.MeanValue
import Mathlib.Tactic.FieldSimp
import Mathlib.Tactic.Ring
import Mathlib.Tactic.Linarith
import Mathlib.Tactic.NormNum

namespace Lbm
namespace HighDensityRatio

open Eos

/-! ### Specification -/

/-- `G` is an antiderivative of `p(r) / r²` on the positive densities. -/
def Anti (p G : ℝ → ℝ) : Prop := ∀ r, 0 < r → HasDerivAt G (p r / r ^ 2) r

/-- The integral of `p - p gas` over the specific volume between the two phases.  Two densities coexist if they have the same pressure and this area
vanishes. -/
noncomputable def area (p G : ℝ → ℝ) (gas liquid : ℝ) : ℝ := G liquid - G gas - p gas * (1 / gas - 1 / liquid)

/-- The shape of an isotherm below the critical temperature at the pressure of the gas: below, above, below, above. -/
structure Isotherm (p : ℝ → ℝ) (gas middle liquid : ℝ) : Prop where
  gas_pos : 0 < gas
  gas_lt : gas < middle
  lt_liquid : middle < liquid
  below : ∀ r, 0 < r → r < gas → p r < p gas
  above : ∀ r, gas < r → r < middle → p gas < p r
  below' : ∀ r, middle < r → r < liquid → p r < p gas
  above' : ∀ r, liquid < r → p gas < p r

/-- **C87 (integration constant).**  For different densities there is exactly one constant for which the free energies of the two phases agree, and it is the
one found; for equal densities the assertion fails. -/
theorem C87_constant (G : ℝ → ℝ) (gas liquid : ℝ) :
    (gas ≠ liquid → ∃ k, integrationConstant G gas liquid = .ok k ∧
      ∀ k', freeEnergyFromEos G k' gas = freeEnergyFromEos G k' liquid ↔ k' = k) ∧
    (gas = liquid → integrationConstant G gas liquid = .error .assertion) := by
  constructor
  · intro h
    have h' : gas - liquid ≠ 0 := sub_ne_zero.2 h
    refine ⟨_, by rw [integrationConstant, if_neg h'], fun k' => ?_⟩
    unfold freeEnergyFromEos
    rw [eq_div_iff h']
    constructor <;> intro e <;> linarith
  · intro h
    rw [integrationConstant, if_pos (sub_eq_zero.2 h)]

theorem psi_zero {G : ℝ → ℝ} {gas liquid k : ℝ} (h : integrationConstant G gas liquid = .ok k) : psi G k gas gas = 0 ∧ psi G k gas liquid = 0 := by
  have hne : gas ≠ liquid := by
    intro e
    rw [(C87_constant G gas liquid).2 e] at h
    simp at h
  obtain ⟨k', h1, h2⟩ := (C87_constant G gas liquid).1 hne
  rw [h] at h1
  injection h1 with h1
  subst h1
  unfold psi
  exact ⟨sub_self _, sub_eq_zero.2 ((h2 _).2 rfl).symm⟩

theorem hasDerivAt_psi {p G : ℝ → ℝ} (hG : Anti p G) (k gas : ℝ) {r : ℝ} (hr : 0 < r) :
    HasDerivAt (psi G k gas) (p r / r + (G r + k)) r := by
  have h := (((hG r hr).add_const k).mul (hasDerivAt_id r)).sub_const (freeEnergyFromEos G k gas)
  have e : p r / r + (G r + k) = p r / r ^ 2 * id r + (G r + k) * 1 := by
    simp only [id]
    field_simp
  rw [e]
  exact h

/-- **C87 (chemical potentials).**  For two densities with the same pressure the derivative of the free energy in each phase is the area of the Maxwell
construction times the density of the other phase over the difference.  It vanishes in both phases exactly if the densities coexist. -/
theorem C87_chemical_potential {p G : ℝ → ℝ} (hG : Anti p G) {gas liquid k : ℝ} (hg : 0 < gas) (hl : 0 < liquid) (hp : p gas = p liquid)
    (h : integrationConstant G gas liquid = .ok k) :
    HasDerivAt (psi G k gas) (area p G gas liquid * liquid / (gas - liquid)) gas ∧
    HasDerivAt (psi G k gas) (area p G gas liquid * gas / (gas - liquid)) liquid ∧
    (deriv (psi G k gas) gas = 0 ↔ area p G gas liquid = 0) ∧ (deriv (psi G k gas) liquid = 0 ↔ area p G gas liquid = 0) := by
  have hne : gas - liquid ≠ 0 := by
    intro e
    rw [(C87_constant G gas liquid).2 (sub_eq_zero.1 e)] at h
    simp at h
  rw [integrationConstant, if_neg hne] at h
  injection h with h
  have e1 : p gas / gas + (G gas + k) = area p G gas liquid * liquid / (gas - liquid) := by
    rw [← h]; unfold area; field_simp; ring
  have e2 : p liquid / liquid + (G liquid + k) = area p G gas liquid * gas / (gas - liquid) := by
    rw [← h, ← hp]; unfold area; field_simp; ring
  have h1 := hasDerivAt_psi hG k gas hg
  have h2 := hasDerivAt_psi hG k gas hl
  rw [e1] at h1
  rw [e2] at h2
  refine ⟨h1, h2, ?_, ?_⟩
  · rw [h1.deriv]; simp [hne, hl.ne']
  · rw [h2.deriv]; simp [hne, hg.ne']

/-- **C87 (pressure).**  At coexistence the pressure is minus the energy that is subtracted. -/
theorem C87_pressure {p G : ℝ → ℝ} {gas liquid k : ℝ} (hg : 0 < gas) (hl : 0 < liquid) (ha : area p G gas liquid = 0)
    (h : integrationConstant G gas liquid = .ok k) : p gas = -freeEnergyFromEos G k gas := by
  have hne : gas - liquid ≠ 0 := by
    intro e
    rw [(C87_constant G gas liquid).2 (sub_eq_zero.1 e)] at h
    simp at h
  rw [integrationConstant, if_neg hne] at h
  injection h with h
  unfold freeEnergyFromEos
  rw [← h]
  unfold area at ha
  have e : (G liquid - G gas) * (gas * liquid) = p gas * (liquid - gas) := by
    have : G liquid - G gas = p gas * (1 / gas - 1 / liquid) := by linarith
    rw [this]; field_simp
  field_simp
  linear_combination e

/-- **C87 (Maxwell construction).**  With the densities of `maxwell_construction` the chemical potentials in the phases are small: the tolerance times the
density of the other phase over the difference.  `deviation` is the integral over the specific volume between its first two arguments. -/
theorem C87_maxwell {p G : ℝ → ℝ} (hG : Anti p G) (zeros : ℝ → List ℝ) (deviation : ℝ → ℝ → ℝ → ℝ) {pMax : ℝ} (hpm : 0 < pMax)
    (hz : ∀ c, -pMax < c → c < 0 → ∀ v ∈ zeros c, p (1 / v) = -c)
    (hdev : ∀ a b c, 0 < a → 0 < b → deviation a b c = G (1 / a) - G (1 / b) + c * (b - a)) (tolerance : ℝ) (fuel : ℕ) (gas liquid k : ℝ)
    (h : maxwell zeros deviation pMax tolerance fuel = some (.ok (gas, liquid))) (hg : 0 < gas) (hl : 0 < liquid)
    (hk : integrationConstant G gas liquid = .ok k) :
    |deriv (psi G k gas) gas| ≤ tolerance * liquid / |gas - liquid| ∧ |deriv (psi G k gas) liquid| ≤ tolerance * gas / |gas - liquid| := by
  obtain ⟨h1, -, -, h4⟩ := C65_maxwell (zeros := zeros) (deviation := deviation) (fun v => p (1 / v)) hpm hz tolerance fuel gas liquid h
  simp only [one_div_one_div] at h1 h4
  obtain ⟨d1, d2, -, -⟩ := C87_chemical_potential hG hg hl h1 hk
  have hne : gas - liquid ≠ 0 := by
    intro e
    rw [(C87_constant G gas liquid).2 (sub_eq_zero.1 e)] at hk
    simp at hk
  have ha : |area p G gas liquid| ≤ tolerance := by
    rw [hdev _ _ _ (one_div_pos.2 hl) (one_div_pos.2 hg)] at h4
    simp only [one_div_one_div] at h4
    unfold area
    rwa [show G liquid - G gas - p gas * (1 / gas - 1 / liquid) = G liquid - G gas + -p gas * (1 / gas - 1 / liquid) by ring]
  rw [d1.deriv, d2.deriv, abs_div, abs_div, abs_mul, abs_mul, abs_of_pos hg, abs_of_pos hl]
  exact ⟨by gcongr, by gcongr⟩

/-- `(psi) / r` has the derivative `(p - p0) / r²`. -/
theorem hasDerivAt_quot {p G : ℝ → ℝ} (hG : Anti p G) {gas k : ℝ} (hp : p gas = -freeEnergyFromEos G k gas) {r : ℝ} (hr : 0 < r) :
    HasDerivAt (fun r => psi G k gas r / r) ((p r - p gas) / r ^ 2) r := by
  have h := (hasDerivAt_psi hG k gas hr).div (hasDerivAt_id r) hr.ne'
  have e : (p r - p gas) / r ^ 2 = ((p r / r + (G r + k)) * id r - psi G k gas r * 1) / id r ^ 2 := by
    simp only [id, psi]
    rw [hp]
    unfold freeEnergyFromEos
    field_simp
    ring
  rw [e]
  exact h

/-- **C87 (double well).**  For an isotherm below the critical temperature and coexisting densities the contribution of the equation of state is positive
except in the two phases, where it vanishes. -/
theorem C87_double_well {p G : ℝ → ℝ} (hG : Anti p G) {gas middle liquid k : ℝ} (hI : Isotherm p gas middle liquid) (ha : area p G gas liquid = 0)
    (h : integrationConstant G gas liquid = .ok k) {r : ℝ} (hr : 0 < r) : 0 ≤ psi G k gas r ∧ (psi G k gas r = 0 ↔ r = gas ∨ r = liquid) := by
  have hg := hI.gas_pos
  have hm : 0 < middle := hg.trans hI.gas_lt
  have hl : 0 < liquid := hm.trans hI.lt_liquid
  have hp := C87_pressure hg hl ha h
  obtain ⟨z1, z2⟩ := psi_zero h
  set q := fun r => psi G k gas r / r with hq
  have hd : ∀ r, 0 < r → HasDerivAt q ((p r - p gas) / r ^ 2) r := fun r hr => hasDerivAt_quot hG hp hr
  have q1 : q gas = 0 := by simp [hq, z1]
  have q2 : q liquid = 0 := by simp [hq, z2]
  have cont : ∀ s : Set ℝ, (∀ x ∈ s, 0 < x) → ContinuousOn q s := fun s hs x hx => (hd x (hs x hx)).continuousAt.continuousWithinAt
  have key : r ≠ gas → r ≠ liquid → 0 < q r := by
    intro n1 n2
    rcases lt_or_gt_of_ne n1 with h1 | h1
    · have hanti : StrictAntiOn q (Set.Icc r gas) := by
        refine strictAntiOn_of_deriv_neg (convex_Icc _ _) (cont _ fun x hx => hr.trans_le hx.1) fun x hx => ?_
        rw [interior_Icc] at hx
        have hx0 := hr.trans hx.1
        rw [(hd x hx0).deriv]
        exact div_neg_of_neg_of_pos (sub_neg.2 (hI.below x hx0 hx.2)) (by positivity)
      rw [← q1]
      exact hanti ⟨le_rfl, h1.le⟩ ⟨h1.le, le_rfl⟩ h1
    · by_cases h2 : r ≤ middle
      · have hmono : StrictMonoOn q (Set.Icc gas r) := by
          refine strictMonoOn_of_deriv_pos (convex_Icc _ _) (cont _ fun x hx => hg.trans_le hx.1) fun x hx => ?_
          rw [interior_Icc] at hx
          have hx0 := hg.trans hx.1
          rw [(hd x hx0).deriv]
          exact div_pos (sub_pos.2 (hI.above x hx.1 (hx.2.trans_le h2))) (by positivity)
        rw [← q1]
        exact hmono ⟨le_rfl, h1.le⟩ ⟨h1.le, le_rfl⟩ h1
      · push Not at h2
        rcases lt_or_gt_of_ne n2 with h3 | h3
        · have hanti : StrictAntiOn q (Set.Icc r liquid) := by
            refine strictAntiOn_of_deriv_neg (convex_Icc _ _) (cont _ fun x hx => hr.trans_le hx.1) fun x hx => ?_
            rw [interior_Icc] at hx
            have hx0 := hr.trans hx.1
            rw [(hd x hx0).deriv]
            exact div_neg_of_neg_of_pos (sub_neg.2 (hI.below' x (h2.trans hx.1) hx.2)) (by positivity)
          rw [← q2]
          exact hanti ⟨le_rfl, h3.le⟩ ⟨h3.le, le_rfl⟩ h3
        · have hmono : StrictMonoOn q (Set.Icc liquid r) := by
            refine strictMonoOn_of_deriv_pos (convex_Icc _ _) (cont _ fun x hx => hl.trans_le hx.1) fun x hx => ?_
            rw [interior_Icc] at hx
            have hx0 := hl.trans hx.1
            rw [(hd x hx0).deriv]
            exact div_pos (sub_pos.2 (hI.above' x hx.1)) (by positivity)
          rw [← q2]
          exact hmono ⟨le_rfl, h3.le⟩ ⟨h3.le, le_rfl⟩ h3
  have hqr : psi G k gas r = q r * r := by simp only [hq]; field_simp
  by_cases n1 : r = gas
  · subst n1; simp [z1]
  by_cases n2 : r = liquid
  · subst n2; simp [z2]
  have := mul_pos (key n1 n2) hr
  rw [hqr]
  exact ⟨this.le, ⟨fun e => absurd e this.ne', fun e => by rcases e with e | e <;> contradiction⟩⟩

theorem wellF_nonneg (c : ℝ) : 0 ≤ wellF c ∧ (wellF c = 0 ↔ c = 0 ∨ c = 1) := by
  unfold wellF
  refine ⟨by positivity, ?_⟩
  rw [mul_eq_zero, sq_eq_zero_iff, sq_eq_zero_iff, sub_eq_zero]
  constructor <;> rintro (h | h)
  · exact Or.inl h
  · exact Or.inr h.symm
  · exact Or.inl h
  · exact Or.inr h.symm

/-- **C87 (minima).**  With positive prefactors the free energy is nonnegative.  It vanishes exactly in the homogeneous states in which the density is that of
gas or liquid and each concentration is 0 or 1. -/
theorem C87_minima {p G : ℝ → ℝ} (hG : Anti p G) {gas middle liquid : ℝ} (hI : Isotherm p gas middle liquid) (ha : area p G gas liquid = 0) (P : Factors)
    (h0 : 0 < P.lam0) (h1 : 0 < P.lam1) (h2 : 0 < P.lam2) (k0 : 0 < P.kap0) (k1 : 0 < P.kap1) (k2 : 0 < P.kap2) :
    ∃ F, freeEnergy P G gas liquid = .ok F ∧ ∀ x : Point, 0 < x.density → 0 ≤ x.gradDensity → 0 ≤ x.gradC1 → 0 ≤ x.gradC2 →
      0 ≤ F x ∧ (F x = 0 ↔ (x.density = gas ∨ x.density = liquid) ∧ (x.c1 = 0 ∨ x.c1 = 1) ∧ (x.c2 = 0 ∨ x.c2 = 1) ∧
        x.gradDensity = 0 ∧ x.gradC1 = 0 ∧ x.gradC2 = 0) := by
  have hne : gas ≠ liquid := (hI.gas_lt.trans hI.lt_liquid).ne
  obtain ⟨k, hk, -⟩ := (C87_constant G gas liquid).1 hne
  refine ⟨_, by rw [freeEnergy, hk]; rfl, fun x hx g0 g1 g2 => ?_⟩
  obtain ⟨a0, b0⟩ := C87_double_well hG hI ha hk hx
  obtain ⟨a1, b1⟩ := wellF_nonneg x.c1
  obtain ⟨a2, b2⟩ := wellF_nonneg x.c2
  show 0 ≤ bulk P G k gas x + interface P x ∧ (bulk P G k gas x + interface P x = 0 ↔ _)
  unfold bulk interface
  have m0 : 0 ≤ P.lam0 / 2 * psi G k gas x.density := by positivity
  have m1 : 0 ≤ P.lam1 / 2 * wellF x.c1 := by positivity
  have m2 : 0 ≤ P.lam2 / 2 * wellF x.c2 := by positivity
  have n0 : 0 ≤ P.kap0 / 2 * x.gradDensity := by positivity
  have n1 : 0 ≤ P.kap1 / 2 * x.gradC1 := by positivity
  have n2 : 0 ≤ P.kap2 / 2 * x.gradC2 := by positivity
  refine ⟨by linarith, ?_⟩
  rw [← b0, ← b1, ← b2]
  have z : ∀ {a b : ℝ}, 0 < a → a / 2 * b = 0 → b = 0 := by
    intro a b ha hb
    rcases mul_eq_zero.1 hb with h | h
    · linarith
    · exact h
  constructor
  · intro e
    exact ⟨z h0 (by linarith), z h1 (by linarith), z h2 (by linarith), z k0 (by linarith), z k1 (by linarith), z k2 (by linarith)⟩
  · rintro ⟨e0, e1, e2, e3, e4, e5⟩
    rw [e0, e1, e2, e3, e4, e5]
    ring

/-! ### Example: `ψ(r) = (r - 1)² (r - 2)² - 3` -/

/-- The pressure. -/
noncomputable def exP (r : ℝ) : ℝ := 3 * r ^ 4 - 12 * r ^ 3 + 13 * r ^ 2 - 1

/-- The antiderivative with another constant. -/
noncomputable def exG (r : ℝ) : ℝ := r ^ 3 - 6 * r ^ 2 + 13 * r + 1 / r

theorem exAnti : Anti exP exG := by
  intro r hr
  have h := (((hasDerivAt_pow 3 r).sub ((hasDerivAt_pow 2 r).const_mul 6)).add ((hasDerivAt_id r).const_mul 13)).add (hasDerivAt_inv hr.ne')
  have e : exG = (((fun x : ℝ => x ^ 3) - fun x => 6 * x ^ 2) + fun x => 13 * id x) + fun x => x⁻¹ := by
    funext x; simp [exG]
  rw [e]
  have e2 : exP r / r ^ 2 = ((3 : ℕ) * r ^ (3 - 1) - 6 * ((2 : ℕ) * r ^ (2 - 1)) + 13 * 1) + -(r ^ 2)⁻¹ := by
    unfold exP
    push_cast
    field_simp
    ring
  rw [e2]
  exact h

theorem exArea : area exP exG 1 2 = 0 := by norm_num [area, exP, exG]

/-- The density between gas and liquid at which the isotherm has the pressure of both. -/
noncomputable def exMiddle : ℝ := (3 + Real.sqrt 33) / 6

theorem exMiddle_eq : 3 * exMiddle ^ 2 - 3 * exMiddle - 2 = 0 ∧ 1 < exMiddle ∧ exMiddle < 2 := by
  have h := Real.sq_sqrt (show (0 : ℝ) ≤ 33 by norm_num)
  have h0 := Real.sqrt_nonneg 33
  unfold exMiddle
  refine ⟨by nlinarith, by nlinarith, by nlinarith⟩

theorem exP_sub (r : ℝ) : exP r - exP 1 = 3 * ((r - 1) * (r - 2) * ((r - exMiddle) * (r + exMiddle - 1))) := by
  obtain ⟨h, -⟩ := exMiddle_eq
  unfold exP
  linear_combination ((r - 1) * (r - 2)) * h

theorem exIsotherm : Isotherm exP 1 exMiddle 2 := by
  obtain ⟨-, h1, h2⟩ := exMiddle_eq
  refine ⟨one_pos, h1, h2, fun r a b => ?_, fun r a b => ?_, fun r a b => ?_, fun r a => ?_⟩
  · rw [← sub_neg, exP_sub]
    have : 0 < (1 - r) * (2 - r) * ((exMiddle - r) * (r + exMiddle - 1)) :=
      mul_pos (mul_pos (by linarith) (by linarith)) (mul_pos (by linarith) (by linarith))
    nlinarith
  · rw [← sub_pos, exP_sub]
    have : 0 < (r - 1) * (2 - r) * ((exMiddle - r) * (r + exMiddle - 1)) :=
      mul_pos (mul_pos (by linarith) (by linarith)) (mul_pos (by linarith) (by linarith))
    nlinarith
  · rw [← sub_neg, exP_sub]
    have : 0 < (r - 1) * (2 - r) * ((r - exMiddle) * (r + exMiddle - 1)) :=
      mul_pos (mul_pos (by linarith) (by linarith)) (mul_pos (by linarith) (by linarith))
    nlinarith
  · rw [← sub_pos, exP_sub]
    have : 0 < (r - 1) * (r - 2) * ((r - exMiddle) * (r + exMiddle - 1)) :=
      mul_pos (mul_pos (by linarith) (by linarith)) (mul_pos (by linarith) (by linarith))
    nlinarith

example : integrationConstant exG 1 2 = .ok (-12) := by norm_num [integrationConstant, exG]

example {r : ℝ} (hr : 0 < r) : psi exG (-12) 1 r = 0 ↔ r = 1 ∨ r = 2 :=
  (C87_double_well exAnti exIsotherm exArea (by norm_num [integrationConstant, exG]) hr).2

example : ∃ F, freeEnergy ⟨1, 1, 1, 1, 1, 1⟩ exG 1 2 = .ok F :=
  let ⟨F, h, _⟩ := C87_minima exAnti exIsotherm exArea ⟨1, 1, 1, 1, 1, 1⟩ one_pos one_pos one_pos one_pos one_pos one_pos
  ⟨F, h⟩

/-- Two densities with the same pressure that do not coexist: the chemical potentials are not zero. -/
example : exP 1 = exP exMiddle := by
  have := exP_sub exMiddle
  simp at this
  linarith

/-- The Maxwell construction for this isotherm, started such that the first shift is the right one. -/
noncomputable def exZeros (c : ℝ) : List ℝ := if c = -3 then [1 / 2, 1 / exMiddle, 1] else []

/-- The integral between two specific volumes. -/
noncomputable def exDeviation (a b c : ℝ) : ℝ := exG (1 / a) - exG (1 / b) + c * (b - a)

theorem exMaxwell : maxwell exZeros exDeviation 6 (1 / 10) 2 = some (.ok (1, 2)) := by
  have hb : integralBounds (exZeros (-3)) = .ok (1 / 2, 1) := by simp [exZeros, integralBounds]
  unfold maxwell
  have e : ((0 : ℝ) + -6) / 2 = -3 := by norm_num
  rw [e, loop_pos exZeros exDeviation (by norm_num) 1 _ none hb]
  have hd : exDeviation (1 / 2) 1 (-3) = 0 := by norm_num [exDeviation, exG]
  simp only [hd]
  rw [loop_some exZeros exDeviation (by norm_num)]
  norm_num

example : |deriv (psi exG (-12) 1) 1| ≤ 1 / 10 * 2 / |(1 : ℝ) - 2| :=
  (C87_maxwell exAnti exZeros exDeviation (pMax := 6) (by norm_num) (fun c _ _ v hv => by
    unfold exZeros at hv
    split at hv
    · rename_i hc
      subst hc
      have hm : exP exMiddle = 3 := by
        have h1 := exP_sub exMiddle
        have h2 : exP 1 = 3 := by norm_num [exP]
        simp at h1
        linarith
      simp only [List.mem_cons, List.not_mem_nil, or_false] at hv
      rcases hv with rfl | rfl | rfl
      · norm_num [exP]
      · rw [one_div_one_div, hm]; norm_num
      · norm_num [exP]
    · simp at hv) (fun _ _ _ _ _ => rfl) (1 / 10) 2 1 2 (-12) exMaxwell one_pos two_pos (by norm_num [integrationConstant, exG])).1

end HighDensityRatio
end Lbm
