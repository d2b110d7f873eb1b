/-
Property theorems C99: force models in central moment space.
-/
import Verif.CentralForcing
import Verif.Props.ForceModels
import Verif.Props.ShiftMatrix
import Mathlib.LinearAlgebra.Matrix.Determinant.Basic
import Mathlib.Tactic.FinCases
import Mathlib.Tactic.NormNum

set_option linter.unusedSectionVars false

namespace Lbm
namespace CentralForcing

open Matrix ForceInput CentralMoments Spec

variable {K P : Type} [Field K] [CharZero K] [DecidableEq K] {Q D : ℕ} {s : ForceInput K Q D}
  {ev : P → (Fin D → K) → K} {moments : Fin Q → P} {N : (Fin D → K) → Matrix (Fin Q) (Fin Q) K}

/-- moment and shift matrix belong to the moments of the method -/
structure Setup (s : ForceInput K Q D) (ev : P → (Fin D → K) → K) (moments : Fin Q → P)
    (N : (Fin D → K) → Matrix (Fin Q) (Fin Q) K) : Prop where
  moment : s.M = momentMatrix ev moments s.c 0
  shift : setUpShiftMatrix ev moments s.c = .ok N

theorem Setup.apply (h : Setup s ev moments N) (p : Fin Q → K) (i : Fin Q) :
    (N s.u *ᵥ (s.M *ᵥ p)) i = Spec.cmom s.c (ev (moments i)) s.u p := by
  have e : s.M *ᵥ p = fun j => Spec.cmom s.c (ev (moments j)) 0 p := by
    rw [h.moment]
    funext j
    simp [Spec.cmom, mulVec, dotProduct, momentMatrix]
  rw [e]
  exact (C52_shift_matrix h.shift).1 s.u p i

/-- C99: the forcing terms are the central moments, about the fluid velocity, of the terms for the populations, scaled with the
relaxation rate of the central moment. -/
theorem C99_terms (h : Setup s ev moments N) (i : Fin Q) :
    (central s (N s.u) .simple).map (· i) = some (Spec.cmom s.c (ev (moments i)) s.u s.simple) ∧
    (central s (N s.u) .luo).map (· i) = some (Spec.cmom s.c (ev (moments i)) s.u s.luo) ∧
    (central s (N s.u) .guo).map (· i) = some ((1 - s.rates i / 2) * Spec.cmom s.c (ev (moments i)) s.u s.luo) ∧
    (central s (N s.u) .buick).map (· i) = some ((1 - s.rates i / 2) * Spec.cmom s.c (ev (moments i)) s.u s.simple) ∧
    (central s (N s.u) .edm).map (· i) = some (Spec.cmom s.c (ev (moments i)) s.u s.edm) ∧
    (central s (N s.u) .shanChen).map (· i) = some
      (3 * (1 - s.rates i / 2) * Spec.cmom s.c (ev (moments i)) s.u s.shanChenLinear +
        9 * (1 - s.rates i / 2) ^ 2 * Spec.cmom s.c (ev (moments i)) s.u s.shanChenNonLinear) := by
  simp only [central, Option.map_some, h.apply, correction, csSq, true_and, Option.some.injEq]
  refine ⟨?_, ?_, ?_⟩ <;> ring

/-! ### moments up to second order -/

theorem cmom_mass {p : (Fin D → K) → K} (hp : ∀ v, p v = 1) (u : Fin D → K) (f : Fin Q → K) : Spec.cmom s.c p u f = ∑ q, f q := by
  simp [Spec.cmom, hp]

theorem cmom_momentum {p : (Fin D → K) → K} {a : Fin D} (hp : ∀ v, p v = v a) (u : Fin D → K) (f : Fin Q → K) :
    Spec.cmom s.c p u f = ∑ q, s.c q a * f q - u a * ∑ q, f q := by
  simp only [Spec.cmom, hp, Pi.sub_apply, Finset.mul_sum, ← Finset.sum_sub_distrib]
  exact Finset.sum_congr rfl fun q _ => by ring

theorem cmom_second {p : (Fin D → K) → K} {a b : Fin D} (hp : ∀ v, p v = v a * v b) (u : Fin D → K) (f : Fin Q → K) :
    Spec.cmom s.c p u f = ∑ q, s.c q a * s.c q b * f q - u a * ∑ q, s.c q b * f q - u b * ∑ q, s.c q a * f q + u a * u b * ∑ q, f q := by
  simp only [Spec.cmom, hp, Pi.sub_apply, Finset.mul_sum, ← Finset.sum_sub_distrib, ← Finset.sum_add_distrib]
  exact Finset.sum_congr rfl fun q _ => by ring

/-- C99: in central moment space no model changes the mass, and the momentum changes by the force, scaled as in moment space. -/
theorem C99_mass_momentum (h : Setup s ev moments N) (iso : Isotropic3 s.c s.w (1 / 3)) (k : ForceKind) (hedm : k = .edm → EdmEq s)
    {κ : Fin Q → K} (hk : central s (N s.u) k = some κ) :
    (∀ i, (∀ v, ev (moments i) v = 1) → κ i = 0) ∧
    ∀ a i, (∀ v, ev (moments i) v = v a) → κ i = forceFactor k (s.rates i) * s.F a := by
  obtain ⟨h1, h2, h3, h4, h5, h6⟩ : _ ∧ _ ∧ _ ∧ _ ∧ _ ∧ _ := ⟨fun i => (C99_terms h i).1, fun i => (C99_terms h i).2.1,
    fun i => (C99_terms h i).2.2.1, fun i => (C99_terms h i).2.2.2.1, fun i => (C99_terms h i).2.2.2.2.1, fun i => (C99_terms h i).2.2.2.2.2⟩
  have hsi := C23_simple iso
  have hlu := C23_luo iso
  have hsc := C23_shan_chen_terms iso
  have hne : k ≠ .he ∧ k ≠ .centralMoment := by constructor <;> rintro rfl <;> cases hk
  constructor
  · intro i hi
    cases k <;> first | (exfalso; simp at hne; done) | simp only [hk, Option.map_some, Option.some.injEq] at h1 h2 h3 h4 h5 h6
    · rw [h1 i, cmom_mass hi, hsi.1]
    · rw [h2 i, cmom_mass hi, hlu.1]
    · rw [h3 i, cmom_mass hi, hlu.1, mul_zero]
    · rw [h4 i, cmom_mass hi, hsi.1, mul_zero]
    · rw [h5 i, cmom_mass hi, (C23_edm (hedm rfl)).1]
    · rw [h6 i, cmom_mass hi, cmom_mass hi, hsc.1, hsc.2.1, mul_zero, mul_zero, add_zero]
  · intro a i hi
    cases k <;> first | (exfalso; simp at hne; done) | simp only [hk, Option.map_some, Option.some.injEq] at h1 h2 h3 h4 h5 h6
    · rw [h1 i, cmom_momentum hi, hsi.1, hsi.2.1]; simp [forceFactor]
    · rw [h2 i, cmom_momentum hi, hlu.1, hlu.2.1]; simp [forceFactor]
    · rw [h3 i, cmom_momentum hi, hlu.1, hlu.2.1]; simp [forceFactor]
    · rw [h4 i, cmom_momentum hi, hsi.1, hsi.2.1]; simp [forceFactor]
    · rw [h5 i, cmom_momentum hi, (C23_edm (hedm rfl)).1, (C23_edm (hedm rfl)).2]; simp [forceFactor]
    · rw [h6 i, cmom_momentum hi, cmom_momentum hi, hsc.1, hsc.2.1, hsc.2.2.1, hsc.2.2.2.1]; simp only [forceFactor]; ring

/-- C99: second central moments of the forcing. Those of Luo and Guo vanish; those of Shan and Chen and of exact differencing do not
depend on the velocity; those of the models with zero second raw moment, Simple and Buick, are proportional to the velocity. -/
theorem C99_second (h : Setup s ev moments N) (iso : Isotropic5 s.c s.w (1 / 3)) (a b : Fin D) (i : Fin Q)
    (hi : ∀ v, ev (moments i) v = v a * v b) :
    (central s (N s.u) .luo).map (· i) = some 0 ∧ (central s (N s.u) .guo).map (· i) = some 0 ∧
    (central s (N s.u) .shanChen).map (· i) = some (3 * (1 - s.rates i / 2) ^ 2 * (s.F a * s.F b / s.refDensity)) ∧
    (central s (N s.u) .simple).map (· i) = some (-(s.F a * s.u b + s.u a * s.F b)) ∧
    (central s (N s.u) .buick).map (· i) = some (-(1 - s.rates i / 2) * (s.F a * s.u b + s.u a * s.F b)) := by
  obtain ⟨h1, h2, h3, h4, -, h6⟩ := C99_terms h i
  have hsi := C23_simple iso.toIsotropic3
  have hlu := C23_luo iso.toIsotropic3
  have hsc := C23_shan_chen_terms iso.toIsotropic3
  have hsc2 := hsc.2.2.2.2 iso a b
  rw [h1, h2, h3, h4, h6]
  simp only [cmom_second hi, hsi.1, hsi.2.1, hsi.2.2, hlu.1, hlu.2.1, hlu.2.2 iso, hsc.1, hsc.2.1, hsc.2.2.1, hsc.2.2.2.1, hsc2.1, hsc2.2,
    Option.some.injEq]
  refine ⟨?_, ?_, ?_, ?_, ?_⟩ <;> ring

/-- C99: the second central moments of the exact difference, for an equilibrium with the second moments of the Maxwellian -/
theorem C99_second_edm (h : Setup s ev moments N) (he : EdmEq s) (p : Fin D → Fin D → K)
    (h2 : ∀ v a b, ∑ q, s.c q a * s.c q b * s.eq s.rho v q = p a b + s.refDensity * (v a * v b)) (a b : Fin D) (i : Fin Q)
    (hi : ∀ v, ev (moments i) v = v a * v b) :
    (central s (N s.u) .edm).map (· i) = some (s.F a * s.F b / s.refDensity) := by
  rw [(C99_terms h i).2.2.2.2.1, cmom_second hi, (C23_edm he).1, (C23_edm he).2, (C23_edm he).2, C23_edm_second he p h2]
  congr 1
  ring

/-! ### relation to the terms for populations -/

/-- C99: if all relaxation rates are equal, the forcing terms are the central moments of the terms for the populations, for all models;
for Simple, Luo and EDM they are so for all relaxation rates. -/
theorem C99_populations (h : Setup s ev moments N) (g : Fin Q → K) (k : ForceKind)
    (hr : s.isSrt = true ∨ k = .simple ∨ k = .luo ∨ k = .edm) {κ p : Fin Q → K} (hk : central s (N s.u) k = some κ)
    (hp : k.pop s g = .ok p) (i : Fin Q) : κ i = Spec.cmom s.c (ev (moments i)) s.u p := by
  have hd : s.M.det ≠ 0 := by rw [h.moment]; exact (setUp_ok h.shift).1
  obtain ⟨h1, h2, h3, h4, h5, h6⟩ := C99_terms h i
  have hsmul : ∀ (x : K) (f : Fin Q → K), Spec.cmom s.c (ev (moments i)) s.u (fun q => x * f q) = x * Spec.cmom s.c (ev (moments i)) s.u f := by
    intro x f
    simp only [Spec.cmom, Finset.mul_sum]
    exact Finset.sum_congr rfl fun q _ => by ring
  have hne : k ≠ .he ∧ k ≠ .centralMoment := by constructor <;> rintro rfl <;> cases hk
  cases k <;> (first | (exfalso; simp at hne; done) | simp only [hk, Option.map_some, Option.some.injEq] at h1 h2 h3 h4 h5 h6) <;> cases hp
  · exact h1
  · exact h2
  · simp only [reduceCtorEq, or_false] at hr
    obtain ⟨rr, e1, e2⟩ := srt_rates hr
    rw [h3, guo, srtOr, if_pos hr, e1, hsmul, e2]
  · simp only [reduceCtorEq, or_false] at hr
    obtain ⟨rr, e1, e2⟩ := srt_rates hr
    rw [h4, buick, srtOr, if_pos hr, e1, hsmul, e2]
  · exact h5
  · simp only [reduceCtorEq, or_false] at hr
    obtain ⟨rr, e1, e2⟩ := srt_rates hr
    have e : s.shanChen = fun q => 3 * (1 - rr / 2) * s.shanChenLinear q + 9 * (1 - rr / 2) ^ 2 * s.shanChenNonLinear q := by
      have e' : s.shanChenMoments = s.M *ᵥ fun q => 3 * (1 - rr / 2) * s.shanChenLinear q + 9 * (1 - rr / 2) ^ 2 * s.shanChenNonLinear q := by
        funext j
        simp only [shanChenMoments, correction, csSq, e2, mulVec, dotProduct, Finset.mul_sum, ← Finset.sum_add_distrib]
        exact Finset.sum_congr rfl fun q _ => by ring
      rw [shanChen, e', mulVec_mulVec, nonsing_inv_mul _ (isUnit_iff_ne_zero.2 hd), one_mulVec]
    rw [h6, e, e2]
    simp only [Spec.cmom, Finset.mul_sum, ← Finset.sum_add_distrib]
    exact Finset.sum_congr rfl fun q _ => by ring

/-- C99: with different relaxation rates the model of Guo is not the same in the two moment spaces. Applied to raw moments, with rows `j`,
`k` for the momentum and `i` for the second moment, its second central moment about the velocity does not vanish. -/
theorem C99_guo_raw (h : Setup s ev moments N) (iso : Isotropic5 s.c s.w (1 / 3)) (hs : s.isSrt = false) {a b : Fin D} {i j k l : Fin Q}
    (hl : ∀ v, ev (moments l) v = 1) (hj : ∀ v, ev (moments j) v = v a) (hk : ∀ v, ev (moments k) v = v b)
    (hi : ∀ v, ev (moments i) v = v a * v b) :
    Spec.cmom s.c (ev (moments i)) s.u s.guo =
      (s.rates k - s.rates i) / 2 * s.u a * s.F b + (s.rates j - s.rates i) / 2 * s.F a * s.u b := by
  have hd : s.M.det ≠ 0 := by rw [h.moment]; exact (setUp_ok h.shift).1
  have hlu := C23_luo iso.toIsotropic3
  have row : ∀ (m : Fin Q) (f : Fin Q → K), (s.M *ᵥ f) m = ∑ q, ev (moments m) (s.c q) * f q := by
    intro m f
    rw [h.moment]
    simp [mulVec, dotProduct, momentMatrix]
  have hg : ∀ m, ∑ q, ev (moments m) (s.c q) * s.guo q = s.correction m * ∑ q, ev (moments m) (s.c q) * s.luo q := by
    intro m
    have := srtOr_mom hd s.luo s.guoMoments m
    rw [hs, if_neg (by simp)] at this
    rw [← row, ← row]
    exact this
  have g0 := hg l
  have g1 := hg j
  have g2 := hg k
  have g3 := hg i
  simp only [hl, hj, hk, hi, one_mul, hlu.1, hlu.2.1, hlu.2.2 iso, correction] at g0 g1 g2 g3
  rw [cmom_second hi, g0, g1, g2, g3]
  ring

/-- C99: adding the two symmetric terms before and after a relaxation with rate `ω` has the effect of the central forcing term. -/
theorem C99_symmetric (h : Setup s ev moments N) (k : ForceKind) {κ before after : Fin Q → K} (hk : central s (N s.u) k = some κ)
    (hb : symmetric s (momentMatrix ev moments s.c s.u) k = some (before, after)) (i : Fin Q) (x xeq : K) :
    (x + before i) + s.rates i * (xeq - (x + before i)) + after i = x + s.rates i * (xeq - x) + κ i := by
  have hc : ∀ f : Fin Q → K, (momentMatrix ev moments s.c s.u *ᵥ f) i = Spec.cmom s.c (ev (moments i)) s.u f := fun f => rfl
  obtain ⟨h1, h2, h3, -⟩ := C99_terms h i
  cases k <;> simp only [symmetric, Option.some.injEq, Prod.mk.injEq, reduceCtorEq] at hb <;> obtain ⟨rfl, rfl⟩ := hb <;>
    simp only [hk, Option.map_some, Option.some.injEq] at h1 h2 h3
  · rw [h1, hc]; ring
  · rw [h2, hc]; ring
  · simp only [hc]; rw [h3]; ring

/-! ### a concrete method -/

namespace Example

/-- a line with three directions, moments `1, x, x²`, different relaxation rates, velocity and force not zero -/
def line : ForceInput ℚ 3 1 where
  c := fun q _ => ![0, 1, -1] q
  w := ![2 / 3, 1 / 6, 1 / 6]
  M := momentMatrix (fun (e : Fin 3) (v : Fin 1 → ℚ) => v 0 ^ (e : ℕ)) id (fun q _ => ![0, 1, -1] q) 0
  rates := ![0, 0, 1]
  rho := 2
  u := fun _ => 1 / 10
  compressible := true
  eq := fun rho u q => ![2 / 3, 1 / 6, 1 / 6] q * rho * (1 + 3 * (![0, 1, -1] q) * u 0 + 9 / 2 * (![0, 1, -1] q) ^ 2 * u 0 ^ 2 - 3 / 2 * u 0 ^ 2)
  heRaw := 0
  F := fun _ => 3

theorem line_det : (momentMatrix (fun (e : Fin 3) (v : Fin 1 → ℚ) => v 0 ^ (e : ℕ)) id line.c 0).det ≠ 0 := by
  rw [Matrix.det_fin_three]
  simp [momentMatrix, line]

theorem line_setup : ∃ N, Setup line (fun (e : Fin 3) (v : Fin 1 → ℚ) => v 0 ^ (e : ℕ)) id N := by
  obtain ⟨N, -, h, -⟩ := C52_triangular (ev := fun (e : Fin 3) (v : Fin 1 → ℚ) => v 0 ^ (e : ℕ)) (moments := id) (c := line.c) line_det (by
    intro u i
    fin_cases i
    · exact ⟨0, fun _ _ => rfl, fun q => by simp⟩
    · refine ⟨![-u 0, 0, 0], fun j hj => ?_, fun q => ?_⟩
      · fin_cases j <;> simp_all
      · simp [Fin.sum_univ_three]; ring
    · refine ⟨![u 0 ^ 2, -2 * u 0, 0], fun j hj => ?_, fun q => ?_⟩
      · fin_cases j <;> simp_all
      · simp [Fin.sum_univ_three]; ring)
  exact ⟨N, rfl, h⟩

theorem line_iso : Isotropic5 line.c line.w (1 / 3) where
  m0 := by simp [line, Fin.sum_univ_three]; norm_num
  m1 a := by simp [line, Fin.sum_univ_three]
  m2 a b := by simp [line, Fin.sum_univ_three, δ, Subsingleton.elim a b]; norm_num
  m3 a b d := by simp [line, Fin.sum_univ_three]
  m4 a b d e := by
    simp [line, Fin.sum_univ_three, δ, Subsingleton.elim a 0, Subsingleton.elim b 0, Subsingleton.elim d 0, Subsingleton.elim e 0]; norm_num
  m5 a b d e f := by simp [line, Fin.sum_univ_three]

/-- C99: the two ways of applying the model of Guo differ for this method -/
theorem C99_guo_differs : ∃ N, Setup line (fun (e : Fin 3) (v : Fin 1 → ℚ) => v 0 ^ (e : ℕ)) id N ∧
    (central line (N line.u) .guo).map (· 2) = some 0 ∧ Spec.cmom line.c (fun v => v 0 ^ 2) line.u line.guo = -3 / 10 := by
  obtain ⟨N, hN⟩ := line_setup
  refine ⟨N, hN, (C99_second hN line_iso 0 0 2 fun v => ?_).2.1, ?_⟩
  · simp [pow_two]
  · have hs : line.isSrt = false := by decide +kernel
    have h := C99_guo_raw hN line_iso hs (a := 0) (b := 0) (i := 2) (j := 1) (k := 1) (l := 0) (fun v => by simp) (fun v => by simp)
      (fun v => by simp) fun v => by simp [pow_two]
    refine h.trans ?_
    simp [line]
    norm_num

/-- the equilibrium of this method satisfies the hypotheses on exact differencing -/
example : EdmEq line ∧ ∀ (v : Fin 1 → ℚ) a b, ∑ q, line.c q a * line.c q b * line.eq line.rho v q =
    (fun _ _ => 2 / 3) a b + line.refDensity * (v a * v b) := by
  refine ⟨⟨fun v => ?_, fun v a => ?_, ?_⟩, fun v a b => ?_⟩
  · simp [line, Fin.sum_univ_three]; ring
  · simp [line, Fin.sum_univ_three, refDensity, Subsingleton.elim a 0]; ring
  · simp [refDensity, line]
  · simp [line, Fin.sum_univ_three, refDensity, Subsingleton.elim a 0, Subsingleton.elim b 0]; ring

end Example

end CentralForcing
end Lbm
