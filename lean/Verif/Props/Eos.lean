import Verif.Eos
import Mathlib.Analysis.Calculus.Deriv.Pow
import Mathlib.Analysis.Calculus.Deriv.Inv
import Mathlib.Analysis.Calculus.MeanValue
import Mathlib.Analysis.Calculus.Deriv.MeanValue
import Mathlib.Analysis.SpecificLimits.Basic
import Mathlib.Tactic.Linarith
import Mathlib.Tactic.FieldSimp
import Mathlib.Tactic.Ring
import Mathlib.Tactic.NormNum
import Mathlib.Tactic.Positivity

/-!
# Properties of the equations of state

C65: the van der Waals equation and its critical temperature, the rounded one of Carnahan and Starling, equations of
state and free energies are inverse to each other, and the Maxwell construction.
-/

namespace Lbm
namespace Eos

open Filter Topology

/-! ## van der Waals -/

/-- **C65.** The returned pressure is the only solution of the van der Waals equation. -/
theorem C65_vdw_equation (gas temperature a b : ℝ) {density : ℝ} (hb : 1 / density - b ≠ 0) (p : ℝ) :
    (p + a * density ^ 2) * (1 / density - b) = gas * temperature ↔ p = vanDerWaals gas temperature a b density := by
  unfold vanDerWaals
  rw [← eq_div_iff hb, eq_sub_iff_add_eq]

theorem hasDerivAt_vdw (gas temperature a b : ℝ) {x : ℝ} (hx : x ≠ 0) (hb : 1 - b * x ≠ 0) :
    HasDerivAt (vanDerWaals gas temperature a b) (gas * temperature / (1 - b * x) ^ 2 - 2 * a * x) x := by
  have hne : 1 / x - b ≠ 0 := by
    rw [div_sub' hx, ne_eq, div_eq_zero_iff, not_or]
    exact ⟨by rwa [mul_comm], hx⟩
  have h1 : HasDerivAt (fun y : ℝ => 1 / y - b) (-1 / x ^ 2) x := by
    have := ((hasDerivAt_inv hx).sub_const b)
    simp only [one_div]
    exact this.congr_deriv (by ring)
  have h2 := ((hasDerivAt_const x (gas * temperature)).div h1 hne).sub (((hasDerivAt_id x).pow 2).const_mul a)
  refine h2.congr_deriv ?_
  have e : 1 / x - b = (1 - b * x) / x := by field_simp
  rw [e]
  simp
  field_simp

/-- **C65.** The critical temperature separates the isotherms: for positive parameters, the pressure rises with the
density at all densities below `1/b` exactly if the temperature is above the critical one. -/
theorem C65_vdw_critical {gas a b : ℝ} (hg : 0 < gas) (ha : 0 < a) (hb : 0 < b) (temperature : ℝ) :
    (∀ x, 0 < x → x < 1 / b → 0 < deriv (vanDerWaals gas temperature a b) x)
      ↔ vanDerWaalsCriticalTemperature a b gas < temperature := by
  have hder : ∀ x, 0 < x → x < 1 / b →
      deriv (vanDerWaals gas temperature a b) x = gas * temperature / (1 - b * x) ^ 2 - 2 * a * x := by
    intro x h0 h1
    refine (hasDerivAt_vdw gas temperature a b h0.ne' ?_).deriv
    rw [lt_div_iff₀ hb] at h1
    nlinarith
  have htc : vanDerWaalsCriticalTemperature a b gas < temperature ↔ 8 * a < 27 * b * (gas * temperature) := by
    unfold vanDerWaalsCriticalTemperature
    rw [div_lt_iff₀ hg, div_lt_iff₀ hb, div_lt_iff₀ (by norm_num)]
    constructor <;> intro h <;> linarith
  rw [htc]
  constructor
  · intro h
    have h3 := h (1 / (3 * b)) (by positivity) (by
      rw [div_lt_div_iff₀ (by positivity) hb]
      linarith)
    rw [hder _ (by positivity) (by rw [div_lt_div_iff₀ (by positivity) hb]; linarith)] at h3
    have e : 1 - b * (1 / (3 * b)) = 2 / 3 := by
      field_simp
      norm_num
    rw [e] at h3
    have h4 : 0 < (gas * temperature / (2 / 3) ^ 2 - 2 * a * (1 / (3 * b))) * (12 * b) := by positivity
    have e2 : (gas * temperature / (2 / 3) ^ 2 - 2 * a * (1 / (3 * b))) * (12 * b)
        = 27 * b * (gas * temperature) - 8 * a := by
      field_simp
      ring
    linarith
  · intro h x h0 h1
    rw [hder x h0 h1]
    rw [lt_div_iff₀ hb] at h1
    have hy : 0 < 1 - b * x := by nlinarith
    rw [sub_pos, lt_div_iff₀ (by positivity)]
    have key : 0 ≤ (b * x - 1 / 3) ^ 2 * (4 / 3 - b * x) := mul_nonneg (sq_nonneg _) (by nlinarith)
    have key2 : b * x * (1 - b * x) ^ 2 ≤ 4 / 27 := by nlinarith
    have : 2 * a * x * (1 - b * x) ^ 2 * (27 * b) < gas * temperature * (27 * b) := by nlinarith
    exact lt_of_mul_lt_mul_right this (by positivity)

/-- **C65.** At the critical temperature the isotherm has a horizontal inflection at the density `1/(3b)`. -/
theorem C65_vdw_inflection {gas a b : ℝ} (hg : 0 < gas) (hb : 0 < b) :
    deriv (vanDerWaals gas (vanDerWaalsCriticalTemperature a b gas) a b) (1 / (3 * b)) = 0
      ∧ deriv (deriv (vanDerWaals gas (vanDerWaalsCriticalTemperature a b gas) a b)) (1 / (3 * b)) = 0 := by
  set T := vanDerWaalsCriticalTemperature a b gas with hT
  have hgT : gas * T = 8 * a / (27 * b) := by
    rw [hT]
    unfold vanDerWaalsCriticalTemperature
    field_simp
  have e : 1 - b * (1 / (3 * b)) = 2 / 3 := by
    field_simp
    norm_num
  have hx : (1 / (3 * b)) ≠ 0 := by positivity
  have hev : deriv (vanDerWaals gas T a b) =ᶠ[𝓝 (1 / (3 * b))] fun x => gas * T / (1 - b * x) ^ 2 - 2 * a * x := by
    have h1 : ∀ᶠ x in 𝓝 (1 / (3 * b)), x ≠ 0 := eventually_ne_nhds hx
    have h2 : ∀ᶠ x in 𝓝 (1 / (3 * b)), 1 - b * x ≠ 0 := by
      have hc : ContinuousAt (fun x : ℝ => 1 - b * x) (1 / (3 * b)) := by fun_prop
      refine hc.eventually_ne ?_
      rw [e]
      norm_num
    filter_upwards [h1, h2] with x hx1 hx2
    exact (hasDerivAt_vdw gas T a b hx1 hx2).deriv
  constructor
  · rw [hev.eq_of_nhds, e, hgT]
    field_simp
    norm_num
  · rw [hev.deriv_eq]
    have hl : HasDerivAt (fun x : ℝ => (1 - b * x) ^ 2) (2 * (1 - b * (1 / (3 * b))) * (-b)) (1 / (3 * b)) := by
      have h := (((hasDerivAt_id (1 / (3 * b))).const_mul b).const_sub 1).pow 2
      exact h.congr_deriv (by simp)
    have hne : (1 - b * (1 / (3 * b))) ^ 2 ≠ 0 := by
      rw [e]
      norm_num
    have h := ((hasDerivAt_const (1 / (3 * b)) (gas * T)).div hl hne).sub
      ((hasDerivAt_id (1 / (3 * b))).const_mul (2 * a))
    have h' : deriv (fun x => gas * T / (1 - b * x) ^ 2 - 2 * a * x) (1 / (3 * b)) = _ := h.deriv
    rw [h', e, hgT]
    field_simp
    ring

example : vanDerWaalsCriticalTemperature (9 / 49) (2 / 21) 1 = 4 / 7 := by
  unfold vanDerWaalsCriticalTemperature
  norm_num

/-! ## Carnahan–Starling -/

theorem hasDerivAt_cs (gas temperature a b : ℝ) {x : ℝ} (hx : 1 - b * x / 4 ≠ 0) :
    HasDerivAt (carnahanStarling gas temperature a b)
      (gas * temperature * ((1 + 4 * (b * x / 4) + 4 * (b * x / 4) ^ 2 - 4 * (b * x / 4) ^ 3 + (b * x / 4) ^ 4)
        / (1 - b * x / 4) ^ 4) - 2 * a * x) x := by
  have he : HasDerivAt (fun y : ℝ => b * y / 4) (b / 4) x := by
    have := ((hasDerivAt_id x).const_mul b).div_const 4
    exact this.congr_deriv (by simp)
  have hn : HasDerivAt (fun y : ℝ => 1 + b * y / 4 + (b * y / 4) ^ 2 - (b * y / 4) ^ 3)
      (b / 4 + 2 * (b * x / 4) * (b / 4) - 3 * (b * x / 4) ^ 2 * (b / 4)) x := by
    have := ((he.const_add 1).add (he.pow 2)).sub (he.pow 3)
    exact this.congr_deriv (by norm_num)
  have hd : HasDerivAt (fun y : ℝ => (1 - b * y / 4) ^ 3) (3 * (1 - b * x / 4) ^ 2 * (-(b / 4))) x := by
    have := (he.const_sub 1).pow 3
    exact this.congr_deriv (by norm_num)
  have hl : HasDerivAt (fun y : ℝ => y * gas * temperature) (gas * temperature) x := by
    have := ((hasDerivAt_id x).mul_const gas).mul_const temperature
    exact this.congr_deriv (by simp)
  have h := (hl.mul (hn.div hd (pow_ne_zero 3 hx))).sub (((hasDerivAt_id x).pow 2).const_mul a)
  refine HasDerivAt.congr_deriv (f := carnahanStarling gas temperature a b) h ?_
  simp only [Pi.div_apply, id_eq, Nat.cast_ofNat]
  have hx' : (4 - b * x) ≠ 0 := by
    intro h0
    exact hx (by linear_combination h0 / 4)
  field_simp
  ring

/-- **C65, partial.** The critical temperature `0.3773 a / (b R)` is right to within `2 · 10⁻⁵ a / (b R)`: from there
on the pressure rises with the density everywhere.  What is missing is that it is exact, see
`C65_cs_critical_wrong`. -/
theorem C65_cs_critical_partial {gas a b : ℝ} (hg : 0 < gas) (ha : 0 < a) (hb : 0 < b) {temperature : ℝ}
    (ht : carnahanStarlingCriticalTemperature a b gas + 2 / 100000 * a / b / gas ≤ temperature) {x : ℝ} (h0 : 0 < x)
    (h1 : x < 4 / b) : 0 < deriv (carnahanStarling gas temperature a b) x := by
  have hx : 0 < 1 - b * x / 4 := by
    rw [lt_div_iff₀ hb] at h1
    linarith
  rw [(hasDerivAt_cs gas temperature a b hx.ne').deriv, sub_pos, ← mul_div_assoc, lt_div_iff₀ (by positivity)]
  set e := b * x / 4 with he
  have he0 : 0 < e := by positivity
  have he1 : e < 1 := by linarith
  have hT : 37732 / 100000 * a ≤ gas * temperature * b := by
    have h2 : carnahanStarlingCriticalTemperature a b gas + 2 / 100000 * a / b / gas = 37732 / 100000 * a / b / gas := by
      unfold carnahanStarlingCriticalTemperature
      ring
    rw [h2, div_le_iff₀ hg, div_le_iff₀ hb] at ht
    linarith
  have hq : 0 < 1 + 4 * e + 4 * e ^ 2 - 4 * e ^ 3 + e ^ 4 := by
    have : 0 ≤ 4 * e ^ 2 * (1 - e) := mul_nonneg (by positivity) (by linarith)
    nlinarith [pow_pos he0 4]
  have hr : 0 < ((173239362002892799 / 7812500000000000) - (647981266111 / 15625000000) * e + (3786277 / 125000) * e ^ 2 - 8 * e ^ 3) := by
    nlinarith [mul_nonneg (sq_nonneg (1 - e)) (by linarith : (0 : ℝ) ≤ 1 - e), sq_nonneg (1 - e)]
  have key : 37732 / 100000 * (1 + 4 * e + 4 * e ^ 2 - 4 * e ^ 3 + e ^ 4) - 8 * e * (1 - e) ^ 4
      = (e - 32611 / 250000) ^ 2 * ((173239362002892799 / 7812500000000000) - (647981266111 / 15625000000) * e + (3786277 / 125000) * e ^ 2 - 8 * e ^ 3)
        + ((2148655414371869288521 / 488281250000000000000000000) + (1423260912571841 / 48828125000000000000) * e) := by ring
  have hpos : 8 * e * (1 - e) ^ 4 < 37732 / 100000 * (1 + 4 * e + 4 * e ^ 2 - 4 * e ^ 3 + e ^ 4) := by
    have := mul_nonneg (sq_nonneg (e - 32611 / 250000)) hr.le
    have : (0 : ℝ) < ((2148655414371869288521 / 488281250000000000000000000) + (1423260912571841 / 48828125000000000000) * e) := by positivity
    linarith
  have hbx : b * x = 4 * e := by
    rw [he]
    ring
  have hfin : 2 * a * x * (1 - e) ^ 4 * b < gas * temperature * (1 + 4 * e + 4 * e ^ 2 - 4 * e ^ 3 + e ^ 4) * b := by
    have e1 : 2 * a * x * (1 - e) ^ 4 * b = a * (8 * e * (1 - e) ^ 4) := by
      linear_combination 2 * a * (1 - e) ^ 4 * hbx
    rw [e1]
    have := mul_le_mul_of_nonneg_right hT hq.le
    have := mul_lt_mul_of_pos_left hpos ha
    nlinarith
  exact lt_of_mul_lt_mul_right hfin hb.le

/-- **C65, wrong.** At the returned critical temperature the isotherm is not monotone yet: there is a density at which
the pressure falls. -/
theorem C65_cs_critical_wrong {gas a b : ℝ} (hg : 0 < gas) (ha : 0 < a) (hb : 0 < b) :
    ∃ x, 0 < x ∧ x < 4 / b
      ∧ deriv (carnahanStarling gas (carnahanStarlingCriticalTemperature a b gas) a b) x < 0 := by
  refine ⟨4 * (13044 / 100000) / b, by positivity, by rw [div_lt_div_iff_of_pos_right hb]; norm_num, ?_⟩
  have he : b * (4 * (13044 / 100000) / b) / 4 = 13044 / 100000 := by field_simp
  rw [(hasDerivAt_cs gas _ a b (by rw [he]; norm_num)).deriv, he]
  have hT : gas * carnahanStarlingCriticalTemperature a b gas = 3773 / 10000 * a / b := by
    unfold carnahanStarlingCriticalTemperature
    field_simp
  rw [hT]
  have e : 3773 / 10000 * a / b * ((1 + 4 * (13044 / 100000) + 4 * (13044 / 100000) ^ 2 - 4 * (13044 / 100000) ^ 3
        + (13044 / 100000) ^ 4) / (1 - 13044 / 100000) ^ 4) - 2 * a * (4 * (13044 / 100000) / b)
      = a / b * (3773 / 10000 * ((1 + 4 * (13044 / 100000) + 4 * (13044 / 100000) ^ 2 - 4 * (13044 / 100000) ^ 3
        + (13044 / 100000) ^ 4) / (1 - 13044 / 100000) ^ 4) - 8 * (13044 / 100000)) := by ring
  rw [e]
  exact mul_neg_of_pos_of_neg (by positivity) (by norm_num)

/-! ## Free energies -/

/-- **C65.** The equation of state of the free energy of an equation of state is that equation of state, whatever the
integration constant and the antiderivative are. -/
theorem C65_eos_of_free_energy (p G : ℝ → ℝ) {x : ℝ} (hx : x ≠ 0) (hG : HasDerivAt G (p x / x ^ 2) x) (const : ℝ) :
    eosFromFreeEnergy (freeEnergyFromEos G const) x = p x := by
  have h := (hG.add_const const).mul (hasDerivAt_id x)
  unfold eosFromFreeEnergy
  have h' : deriv (freeEnergyFromEos G const) x = _ := h.deriv
  rw [h']
  unfold freeEnergyFromEos
  simp
  field_simp
  ring

/-- **C65.** The free energy of the equation of state of a free energy is that free energy up to a multiple of the
density: two antiderivatives on the positive densities differ by a constant. -/
theorem C65_free_energy_of_eos (F G : ℝ → ℝ) (hF : ∀ x, 0 < x → DifferentiableAt ℝ F x)
    (hG : ∀ x, 0 < x → HasDerivAt G (eosFromFreeEnergy F x / x ^ 2) x) (const : ℝ) :
    ∃ k, ∀ x, 0 < x → freeEnergyFromEos G const x = F x + k * x := by
  have hq : ∀ x, 0 < x → HasDerivAt (fun y => G y - F y / y) 0 x := by
    intro x hx
    have h1 := (hF x hx).hasDerivAt.div (hasDerivAt_id x) hx.ne'
    have h := (hG x hx).sub h1
    refine h.congr_deriv ?_
    unfold eosFromFreeEnergy
    simp
    field_simp
    ring
  have hc : ∀ x, 0 < x → G x - F x / x = G 1 - F 1 / 1 := by
    intro x hx
    have hconv : Convex ℝ (Set.Ioi (0 : ℝ)) := convex_Ioi 0
    exact hconv.is_const_of_fderivWithin_eq_zero (𝕜 := ℝ) (f := fun y => G y - F y / y)
      (fun y hy => (hq y hy).differentiableAt.differentiableWithinAt)
      (fun y hy => by
        have := (hq y hy).hasDerivWithinAt (s := Set.Ioi 0) |>.hasFDerivWithinAt
        rw [this.fderivWithin (isOpen_Ioi.uniqueDiffWithinAt hy)]
        ext
        simp) hx (Set.mem_Ioi.2 one_pos)
  refine ⟨G 1 - F 1 / 1 + const, fun x hx => ?_⟩
  have := hc x hx
  unfold freeEnergyFromEos
  have e : G x = F x / x + (G 1 - F 1 / 1) := by linarith
  rw [e]
  field_simp
  ring

/-! ## Maxwell construction -/

section maxwell
variable (zeros : ℝ → List ℝ) (deviation : ℝ → ℝ → ℝ → ℝ)

theorem loop_pos {tolerance dev : ℝ} (h : |dev| > tolerance) (fuel : ℕ) (s : Bisection) (bounds : Option (ℝ × ℝ))
    {bd : ℝ × ℝ} (hz : integralBounds (zeros s.c) = .ok bd) :
    bisectionLoop zeros deviation tolerance (fuel + 1) s bounds dev
      = bisectionLoop zeros deviation tolerance fuel (bisectionStep s (deviation bd.1 bd.2 s.c)) (some bd)
        (deviation bd.1 bd.2 s.c) := by
  cases bounds <;> simp only [bisectionLoop, if_pos h, hz]

theorem loop_error {tolerance dev : ℝ} (h : |dev| > tolerance) (fuel : ℕ) (s : Bisection) (bounds : Option (ℝ × ℝ))
    {e : PyErr} (hz : integralBounds (zeros s.c) = .error e) :
    bisectionLoop zeros deviation tolerance (fuel + 1) s bounds dev = some (.error e) := by
  cases bounds <;> simp only [bisectionLoop, if_pos h, hz]

theorem loop_none {tolerance dev : ℝ} (h : ¬|dev| > tolerance) (fuel : ℕ) (s : Bisection) :
    bisectionLoop zeros deviation tolerance (fuel + 1) s none dev = some (.error .exception) := by
  simp only [bisectionLoop, if_neg h]

theorem loop_some {tolerance dev : ℝ} (h : ¬|dev| > tolerance) (fuel : ℕ) (s : Bisection) (bd : ℝ × ℝ) :
    bisectionLoop zeros deviation tolerance (fuel + 1) s (some bd) dev = some (.ok (1 / bd.2, 1 / bd.1)) := by
  simp only [bisectionLoop, if_neg h]

theorem integralBounds_mem {L : List ℝ} {bd : ℝ × ℝ} (h : integralBounds L = .ok bd) : bd.1 ∈ L ∧ bd.2 ∈ L := by
  unfold integralBounds at h
  split at h
  · rename_i u m l r he
    simp only [Except.ok.injEq] at h
    subst h
    constructor <;> rw [← List.mem_reverse, he] <;> simp
  · simp at h

theorem integralBounds_short {L : List ℝ} (h : L.length < 3) : integralBounds L = .error .indexError := by
  unfold integralBounds
  split
  · rename_i u m l r he
    have := congrArg List.length he
    simp only [List.length_reverse, List.length_cons] at this
    omega
  · rfl

/-- What the loop returns: the bounds of some shift, found with a small deviation. -/
theorem loop_ok (tolerance lo hi : ℝ) (fuel : ℕ) :
    ∀ (s : Bisection) (bounds : Option (ℝ × ℝ)) (dev : ℝ) (gas liquid : ℝ),
      lo ≤ s.shiftMin → s.shiftMax ≤ hi → s.shiftMin < s.shiftMax → s.c = (s.shiftMax + s.shiftMin) / 2 →
      (∀ bd, bounds = some bd →
        ∃ c, lo < c ∧ c < hi ∧ integralBounds (zeros c) = .ok bd ∧ dev = deviation bd.1 bd.2 c) →
      bisectionLoop zeros deviation tolerance fuel s bounds dev = some (.ok (gas, liquid)) →
      ∃ c bd, lo < c ∧ c < hi ∧ integralBounds (zeros c) = .ok bd ∧ gas = 1 / bd.2 ∧ liquid = 1 / bd.1
        ∧ |deviation bd.1 bd.2 c| ≤ tolerance := by
  induction fuel with
  | zero => intro s bounds dev gas liquid _ _ _ _ _ h; simp [bisectionLoop] at h
  | succ fuel ih =>
    intro s bounds dev gas liquid hlo hhi hlt hc hb h
    by_cases hd : |dev| > tolerance
    · match hz : integralBounds (zeros s.c) with
      | .error e =>
        rw [loop_error zeros deviation hd fuel s bounds hz] at h
        simp at h
      | .ok bd =>
        rw [loop_pos zeros deviation hd fuel s bounds hz] at h
        have hc1 : s.shiftMin < s.c := by linarith
        have hc2 : s.c < s.shiftMax := by linarith
        refine ih _ _ _ gas liquid ?_ ?_ ?_ rfl ?_ h
        · unfold bisectionStep
          simp only
          split_ifs <;> linarith
        · unfold bisectionStep
          simp only
          split_ifs <;> linarith
        · unfold bisectionStep
          simp only
          split_ifs <;> linarith
        · intro bd' hbd
          simp only [Option.some.injEq] at hbd
          subst hbd
          exact ⟨s.c, by linarith, by linarith, hz, rfl⟩
    · match bounds, hb, h with
      | none, _, h => simp [loop_none zeros deviation hd] at h
      | some bd, hb, h =>
        rw [loop_some zeros deviation hd] at h
        simp only [Option.some.injEq, Except.ok.injEq, Prod.mk.injEq] at h
        obtain ⟨c, c1, c2, hz, hdev⟩ := hb bd rfl
        exact ⟨c, bd, c1, c2, hz, h.1.symm, h.2.symm, by rw [← hdev]; exact not_lt.1 hd⟩

/-- **C65.** Two densities that are returned are in mechanical equilibrium and satisfy the equal area rule up to the
tolerance: the pressure is the same at both, and the area between the isotherm and it is small. -/
theorem C65_maxwell (p : ℝ → ℝ) {pMax : ℝ} (hp : 0 < pMax)
    (hz : ∀ c, -pMax < c → c < 0 → ∀ v ∈ zeros c, p v = -c) (tolerance : ℝ) (fuel : ℕ) (gas liquid : ℝ)
    (h : maxwell zeros deviation pMax tolerance fuel = some (.ok (gas, liquid))) :
    p (1 / gas) = p (1 / liquid) ∧ 0 < p (1 / gas) ∧ p (1 / gas) < pMax
      ∧ |deviation (1 / liquid) (1 / gas) (-p (1 / gas))| ≤ tolerance := by
  obtain ⟨c, bd, c1, c2, hb, hg, hl, hd⟩ := loop_ok zeros deviation tolerance (-pMax) 0 fuel _ none _ gas liquid
    le_rfl le_rfl (by simpa using hp) rfl (by simp) h
  obtain ⟨m1, m2⟩ := integralBounds_mem hb
  have e1 := hz c c1 c2 _ m1
  have e2 := hz c c1 c2 _ m2
  rw [hg, hl, one_div_one_div, one_div_one_div, e1, e2, neg_neg]
  exact ⟨rfl, by linarith, by linarith, hd⟩

/-- **C65.** The bisection looks on the right side: for a deviation that is positive exactly above a root, the root
stays in the interval, which is halved by every pass. -/
theorem C65_maxwell_step (s : Bisection) (root dev : ℝ) (hdev : 0 < dev ↔ root < s.c)
    (hc : s.c = (s.shiftMax + s.shiftMin) / 2) (h1 : s.shiftMin ≤ root) (h2 : root ≤ s.shiftMax) :
    (bisectionStep s dev).shiftMin ≤ root ∧ root ≤ (bisectionStep s dev).shiftMax
      ∧ (bisectionStep s dev).c = ((bisectionStep s dev).shiftMax + (bisectionStep s dev).shiftMin) / 2
      ∧ (bisectionStep s dev).shiftMax - (bisectionStep s dev).shiftMin = (s.shiftMax - s.shiftMin) / 2 := by
  unfold bisectionStep
  by_cases hd : dev > 0
  · simp only [hd, if_true]
    exact ⟨h1, (hdev.1 hd).le, trivial, by rw [hc]; ring⟩
  · simp only [hd, if_false]
    exact ⟨not_lt.1 fun h => hd (hdev.2 h), h2, trivial, by rw [hc]; ring⟩

theorem loop_terminates {tolerance L root lo hi : ℝ} (ht : 0 < tolerance) (hL : 0 ≤ L) (bounds : ℝ → ℝ × ℝ)
    (hz : ∀ c, lo < c → c < hi → integralBounds (zeros c) = .ok (bounds c))
    (hsign : ∀ c, lo < c → c < hi → (0 < deviation (bounds c).1 (bounds c).2 c ↔ root < c))
    (hlip : ∀ c, lo < c → c < hi → |deviation (bounds c).1 (bounds c).2 c| ≤ L * |c - root|) (m : ℕ) :
    ∀ (s : Bisection) (bd : Option (ℝ × ℝ)) (dev : ℝ), lo ≤ s.shiftMin → s.shiftMax ≤ hi → s.shiftMin < s.shiftMax →
      s.c = (s.shiftMax + s.shiftMin) / 2 →
      s.shiftMin ≤ root → root ≤ s.shiftMax → L * (s.shiftMax - s.shiftMin) ≤ tolerance * 2 ^ m →
      (bd = none → tolerance < |dev|) →
      ∃ r, bisectionLoop zeros deviation tolerance (m + 2) s bd dev = some (.ok r) := by
  have hclose : ∀ s : Bisection, s.c = (s.shiftMax + s.shiftMin) / 2 → s.shiftMin ≤ root → root ≤ s.shiftMax →
      |s.c - root| ≤ (s.shiftMax - s.shiftMin) / 2 := by
    intro s hc h1 h2
    rw [abs_le]
    constructor <;> linarith
  induction m with
  | zero =>
    intro s bd dev hlo hhi hlt hc h1 h2 hs hb
    have hc1 : lo < s.c := by linarith
    have hc2 : s.c < hi := by linarith
    by_cases hd : |dev| > tolerance
    · rw [loop_pos zeros deviation hd _ s bd (hz s.c hc1 hc2)]
      refine ⟨_, loop_some zeros deviation (not_lt.2 ?_) 0 _ _⟩
      have := hlip s.c hc1 hc2
      have := mul_le_mul_of_nonneg_left (hclose s hc h1 h2) hL
      nlinarith
    · match bd, hb with
      | none, hb => exact absurd (hb rfl) hd
      | some bd, _ => exact ⟨_, loop_some zeros deviation hd 1 s bd⟩
  | succ m ih =>
    intro s bd dev hlo hhi hlt hc h1 h2 hs hb
    have hc1 : lo < s.c := by linarith
    have hc2 : s.c < hi := by linarith
    by_cases hd : |dev| > tolerance
    · rw [loop_pos zeros deviation hd _ s bd (hz s.c hc1 hc2)]
      obtain ⟨a1, a2, a3, a4⟩ := C65_maxwell_step s root _ (hsign s.c hc1 hc2) hc h1 h2
      refine ih _ _ _ ?_ ?_ ?_ a3 a1 a2 ?_ (by simp)
      · unfold bisectionStep
        simp only
        split_ifs <;> linarith
      · unfold bisectionStep
        simp only
        split_ifs <;> linarith
      · linarith
      · rw [a4]
        rw [pow_succ] at hs
        linarith
    · match bd, hb with
      | none, hb => exact absurd (hb rfl) hd
      | some bd, _ => exact ⟨_, loop_some zeros deviation hd (m + 2) s bd⟩

/-- **C65, partial.** The search ends, for every positive tolerance, if three volumes exist for every pressure between
zero and that of the local maximum, the deviation is positive exactly above a root, and is bounded by a multiple of the
distance to it.  What is missing is the first of these: see `C65_maxwell_near_critical_wrong`. -/
theorem C65_maxwell_terminates_partial {pMax tolerance L root : ℝ} (hp : 0 < pMax) (ht : 0 < tolerance) (hL : 0 ≤ L)
    (bounds : ℝ → ℝ × ℝ) (hz : ∀ c, -pMax < c → c < 0 → integralBounds (zeros c) = .ok (bounds c))
    (h1 : -pMax ≤ root) (h2 : root ≤ 0)
    (hsign : ∀ c, -pMax < c → c < 0 → (0 < deviation (bounds c).1 (bounds c).2 c ↔ root < c))
    (hlip : ∀ c, -pMax < c → c < 0 → |deviation (bounds c).1 (bounds c).2 c| ≤ L * |c - root|) :
    ∃ fuel r, maxwell zeros deviation pMax tolerance fuel = some (.ok r) := by
  obtain ⟨m, hm⟩ := pow_unbounded_of_one_lt (L * (0 - -pMax) / tolerance) (one_lt_two (α := ℝ))
  rw [div_lt_iff₀ ht] at hm
  obtain ⟨r, hr⟩ := loop_terminates zeros deviation ht hL bounds hz hsign hlip m ⟨-pMax, 0, (0 + -pMax) / 2⟩ none
    (tolerance * 2) le_rfl le_rfl (by simpa using hp) rfl h1 h2 (by
      change L * (0 - -pMax) ≤ _
      linarith) (fun _ => by
      rw [abs_of_pos (by linarith)]
      linarith)
  exact ⟨m + 2, r, hr⟩

/-- **C65, wrong.** With a tolerance of zero nothing is searched: the first test fails and the bounds are undefined. -/
theorem C65_maxwell_zero_tolerance_wrong (pMax : ℝ) (fuel : ℕ) :
    maxwell zeros deviation pMax 0 (fuel + 1) = some (.error .exception) := by
  unfold maxwell
  exact loop_none zeros deviation (by simp) _ _

end maxwell

/-- The isotherm of the van der Waals gas at 99.4 % of its critical temperature, over the specific volume. -/
noncomputable def nearCritical (v : ℝ) : ℝ := vanDerWaals 1 (8 / 3 * (529 / 5324) * 10) 3 (1 / 3) (1 / v)

theorem nearCritical_eq (v : ℝ) : nearCritical v = 8 / 3 * (5290 / 5324) / (v - 1 / 3) - 3 / v ^ 2 := by
  unfold nearCritical vanDerWaals
  rw [one_div_one_div]
  congr 1
  · norm_num
  · rw [one_div, inv_pow]
    ring

/-- The temperature is below the critical one, and the isotherm has a stationary point at 11/10. -/
theorem nearCritical_spinodal : 8 / 3 * (529 / 5324) * 10 < vanDerWaalsCriticalTemperature 3 (1 / 3) 1
    ∧ deriv nearCritical (11 / 10) = 0 := by
  constructor
  · unfold vanDerWaalsCriticalTemperature
    norm_num
  · have hf : nearCritical = fun v => 8 / 3 * (5290 / 5324) / (v - 1 / 3) - 3 / v ^ 2 := funext nearCritical_eq
    rw [hf]
    have h1 := (hasDerivAt_const (11 / 10 : ℝ) (8 / 3 * (5290 / 5324) : ℝ)).div
      ((hasDerivAt_id (11 / 10 : ℝ)).sub_const (1 / 3)) (by norm_num)
    have h2 := (hasDerivAt_const (11 / 10 : ℝ) (3 : ℝ)).div ((hasDerivAt_id (11 / 10 : ℝ)).pow 2) (by norm_num)
    have h : deriv (fun v : ℝ => 8 / 3 * (5290 / 5324) / (v - 1 / 3) - 3 / v ^ 2) (11 / 10) = _ := (h1.sub h2).deriv
    rw [h]
    norm_num

/-- No two volumes have the pressure of the first shift that is tried. -/
theorem nearCritical_unique {u v : ℝ} (hu : 1 / 3 < u) (hv : 1 / 3 < v) (h1 : nearCritical u = nearCritical (11 / 10) / 2)
    (h2 : nearCritical v = nearCritical (11 / 10) / 2) : u = v := by
  by_contra hne
  have hp : nearCritical (11 / 10) / 2 = (650 / 1331) := by
    rw [nearCritical_eq]
    norm_num
  rw [hp, nearCritical_eq] at h1 h2
  have hu0 : u - 1 / 3 ≠ 0 := by linarith
  have hv0 : v - 1 / 3 ≠ 0 := by linarith
  have hu1 : u ≠ 0 := by linarith
  have hv1 : v ≠ 0 := by linarith
  have c1 : u ^ 3 - (1123 / 195) * u ^ 2 + (3993 / 650) * u - (1331 / 650) = 0 := by
    have e : 8 / 3 * (5290 / 5324) * u ^ 2 - 3 * (u - 1 / 3) = 650 / 1331 * (u ^ 2 * (u - 1 / 3)) := by
      rw [← h1, sub_mul]
      congr 1
      · rw [mul_left_comm, div_mul_cancel₀ _ hu0, mul_comm]
      · rw [div_mul_eq_mul_div, eq_div_iff (pow_ne_zero 2 hu1)]
        ring
    linear_combination -(1331 / 650) * e
  have c2 : v ^ 3 - (1123 / 195) * v ^ 2 + (3993 / 650) * v - (1331 / 650) = 0 := by
    have e : 8 / 3 * (5290 / 5324) * v ^ 2 - 3 * (v - 1 / 3) = 650 / 1331 * (v ^ 2 * (v - 1 / 3)) := by
      rw [← h2, sub_mul]
      congr 1
      · rw [mul_left_comm, div_mul_cancel₀ _ hv0, mul_comm]
      · rw [div_mul_eq_mul_div, eq_div_iff (pow_ne_zero 2 hv1)]
        ring
    linear_combination -(1331 / 650) * e
  have hq : u ^ 2 + u * v + v ^ 2 - (1123 / 195) * (u + v) + (3993 / 650) = 0 := by
    have : (u - v) * (u ^ 2 + u * v + v ^ 2 - (1123 / 195) * (u + v) + (3993 / 650)) = 0 := by
      linear_combination c1 - c2
    exact (mul_eq_zero.1 this).resolve_left (sub_ne_zero.2 hne)
  obtain ⟨w, hw⟩ : ∃ w, w = (1123 / 195) - u - v := ⟨_, rfl⟩
  have s1 : u + v + w = (1123 / 195) := by rw [hw]; ring
  have s2 : u * v + u * w + v * w = (3993 / 650) := by rw [hw]; linear_combination -hq
  have s3 : u * v * w = (1331 / 650) := by rw [hw]; linear_combination c1 - u * hq
  have hdisc : ((u - v) * (u - w) * (v - w)) ^ 2
      = (u + v + w) ^ 2 * (u * v + u * w + v * w) ^ 2 - 4 * (u * v + u * w + v * w) ^ 3
        - 4 * (u + v + w) ^ 3 * (u * v * w) + 18 * (u + v + w) * (u * v + u * w + v * w) * (u * v * w)
        - 27 * (u * v * w) ^ 2 := by ring
  rw [s1, s2, s3] at hdisc
  have hnn := sq_nonneg ((u - v) * (u - w) * (v - w))
  rw [hdisc] at hnn
  norm_num at hnn

/-- **C65, wrong.** Near the critical temperature the construction fails: the shifts start at half of the pressure of
the local maximum, where the isotherm has a single volume, and the third last of them raises an `IndexError`. -/
theorem C65_maxwell_near_critical_wrong (zeros : ℝ → List ℝ) (deviation : ℝ → ℝ → ℝ → ℝ) (hnd : ∀ c, (zeros c).Nodup)
    (hz : ∀ c, ∀ v ∈ zeros c, 1 / 3 < v ∧ nearCritical v = -c) {tolerance : ℝ} (ht : 0 < tolerance) (fuel : ℕ) :
    maxwell zeros deviation (nearCritical (11 / 10)) tolerance (fuel + 1) = some (.error .indexError) := by
  unfold maxwell
  refine loop_error zeros deviation ?_ fuel _ none (integralBounds_short ?_)
  · rw [abs_of_pos (by linarith)]
    linarith
  · change (zeros ((0 + -nearCritical (11 / 10)) / 2)).length < 3
    set L := zeros ((0 + -nearCritical (11 / 10)) / 2) with hL
    have hall : ∀ u ∈ L, ∀ v ∈ L, u = v := by
      intro u hu v hv
      obtain ⟨u1, u2⟩ := hz _ u hu
      obtain ⟨v1, v2⟩ := hz _ v hv
      exact nearCritical_unique u1 v1 (by rw [u2]; ring) (by rw [v2]; ring)
    have hN := hnd ((0 + -nearCritical (11 / 10)) / 2)
    rw [← hL] at hN
    match L, hall, hN with
    | [], _, _ => simp
    | [_], _, _ => simp
    | a :: b :: _, hall, hN =>
      have : a = b := hall a (by simp) b (by simp)
      subst this
      simp at hN

example : ∃ fuel r, maxwell (fun c => [1 + c, 2 + c, 3 + c]) (fun l u c => (u - l) * (c + 1 / 3)) 1 (1 / 10000) fuel
    = some (.ok r) :=
  C65_maxwell_terminates_partial (root := -1 / 3) (L := 2) _ _ one_pos (by norm_num) (by norm_num)
    (fun c => (1 + c, 3 + c)) (fun c _ _ => rfl) (by norm_num) (by norm_num)
    (fun c _ _ => by
      simp only
      constructor <;> intro h <;> linarith)
    (fun c _ _ => by
      rw [show (3 + c - (1 + c)) * (c + 1 / 3) = 2 * (c - -1 / 3) by ring, abs_mul]
      norm_num)

end Eos
end Lbm
