/-
C108: diffusion between plates (`velocity_input`, `DiffusionDirichlet`).
-/
import Verif.Props.Couette
import Verif.VelocityInput
import Mathlib.Algebra.BigOperators.Field

set_option linter.unusedSectionVars false

namespace Lbm
namespace Poiseuille

open Spec Simulation Matrix

/-! ### The profile -/

section Profile
variable {K : Type} [Field K] [CharZero K] {D Q : ℕ} {c : Fin Q → Vec D} {b : Fin D} {size : Fin D → ℕ} {inv : Fin Q → Fin Q}
  {W : Vec D → Fin Q → (Fin Q → K) → K} {C : Vec D → (Fin Q → K) → Fin Q → K} {g : Vec D → Fin Q → K}

/-- C108. A steady concentration between plates with concentrations `C₀`, `C₁` that is the same in all cells of a row is the linear
profile between the plates, half a cell outside of the outermost cells, for every viscosity and both rates; the flux (with the
correction of half a relaxation) is `-D` times the gradient with `D = (1/ω - 1/2)/3`. The collisions may differ from row to row. -/
theorem C108_profile (hinj : Function.Injective c) (hinv : ∀ i, c (inv i) = -c i)
    (hc : ∀ i, c i b = -1 ∨ c i b = 0 ∨ c i b = 1) (hs : ∀ k, 0 < size k)
    (hg : ∀ x ∈ (channel size b).fluid, ∀ y ∈ (channel size b).fluid, x b = y b → g x = g y)
    (hCr : ∀ x ∈ (channel size b).fluid, ∀ y ∈ (channel size b).fluid, x b = y b → C x = C y)
    (steady : ∀ x ∈ (channel size b).fluid, (channel size b).collideStream c W C g x = g x)
    (C₀ C₁ : K) (hW0 : ∀ x ∈ (channel size b).fluid, x b = 0 → PlateSource c b 1 inv C₀ (W x) (C x (g x)))
    (hW1 : ∀ x ∈ (channel size b).fluid, x b + 1 = size b → PlateSource c b (-1) inv C₁ (W x) (C x (g x)))
    (ωs ωf : K) (h0 : ωs ≠ 0) (hf0 : ωf ≠ 0) (hf2 : ωf ≠ 2)
    (hC : ∀ x ∈ (channel size b).fluid, PlateDiffusion c b ωs ωf (C x) (g x)) :
    ∀ x ∈ (channel size b).fluid, ∑ i, g x i = planeCouette C₀ C₁ (size b) (x b + 1 / 2) ∧
      (1 - ωf / 2) * dirMoment c (fun v => v b) (g x) = -((1 / ωf - 1 / 2) / 3) * ((C₁ - C₀) / size b) := by
  have rs := row_stream_of hs hg steady hCr
  obtain ⟨n, hn⟩ : ∃ n, n = size b := ⟨_, rfl⟩
  have hn0 : 0 < n := hn ▸ hs b
  obtain ⟨A, hA⟩ : ∃ A : ℕ → Fin Q → K, A = fun y : ℕ => C (rowCell b (y : ℤ)) (g (rowCell b (y : ℤ))) := ⟨_, rfl⟩
  have hAy : ∀ y : ℕ, C (rowCell b (y : ℤ)) (g (rowCell b (y : ℤ))) = A y := fun y => by rw [hA]
  have hcg : ∀ y : ℕ, y < n → PlateDiffusion c b ωs ωf (C (rowCell b y)) (g (rowCell b y)) := fun y hy =>
    hC _ (rowCell_mem hs (by omega) (by omega))
  have s0 : ∀ y : ℕ, y < n → part c b 0 (fun _ => 1) (g (rowCell b y)) = part c b 0 (fun _ => 1) (A y) := by
    intro y hy
    refine Finset.sum_congr rfl fun i _ => ?_
    split
    · rename_i hi
      have := rs y (by omega) (by omega) i
      rw [hi, sub_zero, if_neg (by omega), hAy] at this
      rw [this]
    · rfl
  have s1 : ∀ y : ℕ, y + 1 < n →
      part c b 1 (fun _ => 1) (g (rowCell b (y + 1 : ℕ))) = part c b 1 (fun _ => 1) (A y) := by
    intro y hy
    refine Finset.sum_congr rfl fun i _ => ?_
    split
    · rename_i hi
      have := rs (y + 1 : ℕ) (by omega) (by omega) i
      rw [hi, if_neg (by omega), show ((y + 1 : ℕ) : ℤ) - 1 = y by omega, hAy] at this
      rw [this]
    · rfl
  have s2 : ∀ y : ℕ, y + 1 < n →
      part c b (-1) (fun _ => 1) (g (rowCell b y)) = part c b (-1) (fun _ => 1) (A (y + 1)) := by
    intro y hy
    refine Finset.sum_congr rfl fun i _ => ?_
    split
    · rename_i hi
      have := rs y (by omega) (by omega) i
      rw [hi, if_neg (by omega), show (y : ℤ) - -1 = (y + 1 : ℕ) by omega, hAy] at this
      rw [this]
    · rfl
  -- walls
  have wall : ∀ (s : ℤ) (y : ℕ) (q : K), PlateSource c b s inv q (W (rowCell b y)) (A y) →
      (∀ i, c i b = s → g (rowCell b y) i = W (rowCell b y) i (A y)) →
      part c b s (fun _ => 1) (g (rowCell b y)) = -part c b (-s) (fun _ => 1) (A y) + q / 3 := by
    intro s y q hq hi
    have e1 : part c b s (fun _ => 1) (fun i => A y (inv i)) = part c b (-s) (fun _ => 1) (A y) := by
      have := part_opposite (b := b) hinj hinv s (-s) (fun _ => 1) 1 (fun _ => rfl) rfl (fun i => A y (inv i)) (A y) fun i _ => rfl
      rw [this]; push_cast; ring
    rw [← e1]
    have e2 : part c b s (fun _ => 1) (g (rowCell b y)) + part c b s (fun _ => 1) (fun i => A y (inv i)) = q / 3 := by
      refine Eq.trans ?_ hq
      unfold part
      rw [← Finset.sum_add_distrib]
      refine Finset.sum_congr rfl fun i _ => ?_
      split
      · rename_i h; rw [hi i h]; push_cast; ring
      · simp
    linear_combination e2
  have w1 : part c b 1 (fun _ => 1) (g (rowCell b (0 : ℕ))) = -part c b (-1) (fun _ => 1) (A 0) + C₀ / 3 := by
    refine wall 1 0 C₀ ?_ fun i hi => ?_
    · rw [← hAy]; exact hW0 _ (rowCell_mem hs (by omega) (by omega)) (by simp [rowCell])
    · have := rs (0 : ℕ) (by omega) (by omega) i
      rw [hi, if_pos (by omega), hAy] at this
      exact this
  have w2 : part c b (-1) (fun _ => 1) (g (rowCell b (n - 1 : ℕ))) = -part c b 1 (fun _ => 1) (A (n - 1)) + C₁ / 3 := by
    have := wall (-1) (n - 1) C₁ ?_ fun i hi => ?_
    · rwa [neg_neg] at this
    · rw [← hAy]; exact hW1 _ (rowCell_mem hs (by omega) (by omega)) (by simp [rowCell]; omega)
    · have := rs (n - 1 : ℕ) (by omega) (by omega) i
      rw [hi, if_pos (by omega), hAy] at this
      exact this
  -- moments in terms of the parts
  have dm := fun (φ : Vec D → ℤ) (f : Fin Q → K) => dirMoment_parts hc φ f
  have hone : ∀ f : Fin Q → K, ∑ i, f i = dirMoment c (fun _ => 1) f := fun f => by simp [dirMoment]
  have p0 : ∀ (s : ℤ) (f : Fin Q → K), part c b s (fun v => v b) f = s * part c b s (fun _ => 1) f := fun s f =>
    part_mul s _ _ s (fun v hv => by rw [hv, mul_one]) f
  have p1 : ∀ (s : ℤ) (f : Fin Q → K), part c b s (fun v => v b ^ 2) f = ((s ^ 2 : ℤ) : K) * part c b s (fun _ => 1) f := fun s f =>
    part_mul s _ _ _ (fun v hv => by rw [hv, mul_one]) f
  have hrow : ∀ y : ℕ, y < n →
      part c b 1 (fun _ => 1) (A y) + part c b (-1) (fun _ => 1) (A y) =
        part c b 1 (fun _ => 1) (g (rowCell b y)) + part c b (-1) (fun _ => 1) (g (rowCell b y)) ∧
      part c b 1 (fun _ => 1) (A y) - part c b (-1) (fun _ => 1) (A y) =
        (1 - ωf) * (part c b 1 (fun _ => 1) (g (rowCell b y)) - part c b (-1) (fun _ => 1) (g (rowCell b y))) ∧
      ∑ i, g (rowCell b y) i = 3 * (part c b 1 (fun _ => 1) (g (rowCell b y)) + part c b (-1) (fun _ => 1) (g (rowCell b y))) := by
    intro y hy
    have hm := (hcg y hy).mass
    have hfl := (hcg y hy).flux
    have hse := (hcg y hy).second
    rw [hAy] at hm hfl hse
    rw [hone, hone, dm, dm, s0 y hy] at hm
    rw [dm, dm] at hfl hse
    simp only [p0] at hfl
    simp only [p1] at hse
    push_cast at hfl hse
    have k1 : part c b 1 (fun _ => 1) (A y) + part c b (-1) (fun _ => 1) (A y) =
        part c b 1 (fun _ => 1) (g (rowCell b y)) + part c b (-1) (fun _ => 1) (g (rowCell b y)) := by linear_combination hm
    refine ⟨k1, by linear_combination hfl, ?_⟩
    have k3 : ωs * ((∑ i, g (rowCell b y) i) / 3 -
        (part c b 1 (fun _ => 1) (g (rowCell b y)) + part c b (-1) (fun _ => 1) (g (rowCell b y)))) = 0 := by
      linear_combination -hse + k1
    linear_combination 3 * (mul_eq_zero.1 k3).resolve_left h0
  have key := rows_solution n hn0
    (fun y => part c b 1 (fun _ => 1) (g (rowCell b y)) + part c b (-1) (fun _ => 1) (g (rowCell b y)))
    (fun y => part c b 1 (fun _ => 1) (g (rowCell b y)) - part c b (-1) (fun _ => 1) (g (rowCell b y))) ωf 0 (2 * C₀ / 3) (2 * C₁ / 3)
    hf0 (sub_ne_zero.2 (Ne.symm hf2))
    (fun y hy => by
      obtain ⟨r1, r2, -⟩ := hrow y (by omega)
      linear_combination 2 * s1 y hy + r1 + r2)
    (fun y hy => by
      obtain ⟨r1, r2, -⟩ := hrow (y + 1) hy
      linear_combination 2 * s2 y hy + r1 - r2)
    (by
      obtain ⟨r1, r2, -⟩ := hrow 0 hn0
      linear_combination 2 * w1 - r1 + r2)
    (by
      obtain ⟨r1, r2, -⟩ := hrow (n - 1) (by omega)
      linear_combination 2 * w2 - r1 - r2)
  intro x hx
  have hxb := mem_fluid.1 hx b
  obtain ⟨y, hy⟩ : ∃ y : ℕ, x b = y := ⟨(x b).toNat, by omega⟩
  have hyn : y < n := by omega
  have ex : g x = g (rowCell b y) := hg x hx _ (rowCell_mem hs (by omega) (by omega)) (by simp [rowCell, hy])
  obtain ⟨k1, k2⟩ := key y hyn
  have hnK : (n : K) ≠ 0 := by exact_mod_cast hn0.ne'
  constructor
  · rw [ex, (hrow y hyn).2.2, hy, ← hn, k1]
    unfold planeCouette
    push_cast
    ring
  · rw [ex, dm]
    simp only [p0]
    have e : ((0 : ℤ) : K) * part c b 0 (fun _ => 1) (g (rowCell b ↑y)) + ((1 : ℤ) : K) * part c b 1 (fun _ => 1) (g (rowCell b ↑y)) +
        ((-1 : ℤ) : K) * part c b (-1) (fun _ => 1) (g (rowCell b ↑y)) = part c b 1 (fun _ => 1) (g (rowCell b ↑y)) -
        part c b (-1) (fun _ => 1) (g (rowCell b ↑y)) := by push_cast; ring
    rw [e, k2, ← hn]
    field_simp
    ring

end Profile

/-! ### Collisions with given velocity -/

section Method
variable {K : Type} [Field K] [CharZero K] [DecidableEq K]

/-- the method whose equilibrium takes the conserved quantities from `input` -/
def withInput {st : List (List ℤ)} (o : MaxwellOptions K st) (cq : Cqc K (st.headD []).length)
    (input : (Fin st.length → K) → Macro K (st.headD []).length) : MomentMethod K PExpr st.length :=
  { o.method cq with meq := fun f p => o.meqOf cq.compressible (input f) p }

/-- `create_lb_collision_rule` with `density_input` and `velocity_input` (`creationfunctions.py:656-684`) -/
noncomputable def inputRule {st : List (List ℤ)} (o : MaxwellOptions K st) (cq : Cqc K (st.headD []).length) (density : Option K)
    (velocity : Option (Fin (st.headD []).length → K)) : Except PyErr ((Fin st.length → K) → Fin st.length → K) :=
  match cq.inputs (vel st _) density velocity with
  | .ok input => (withInput o cq input).getCollisionRule
  | .error e => .error e

/-- C108. Without fields this is the rule of the method; a density without a velocity is refused. -/
theorem C108_input {st : List (List ℤ)} (o : MaxwellOptions K st) (cq : Cqc K (st.headD []).length) :
    inputRule o cq none none = (o.method cq).getCollisionRule ∧ ∀ rho, inputRule o cq (some rho) none = .error .valueError :=
  ⟨rfl, fun _ => rfl⟩

/-- C108. Both fields given: the equilibrium has the density and the velocity of the fields, and the deviation of the density from the
background; where the fields hold what the method itself would compute, they change nothing. -/
theorem C108_input_both {D Q : ℕ} (cq : Cqc K D) (c : Fin Q → Fin D → K) (rho : K) (u : Fin D → K) :
    ∃ F, cq.inputs c (some rho) (some u) = .ok F ∧ ∀ f, (F f).rho = rho ∧ (F f).u = u ∧ cq.rho0 + (F f).deltaRho = rho ∧
      ((cq.equilibriumInput c f).rho = rho → (cq.equilibriumInput c f).u = u → F f = cq.equilibriumInput c f) := by
  refine ⟨_, rfl, fun f => ⟨rfl, rfl, by ring, ?_⟩⟩
  rintro rfl rfl
  unfold Cqc.equilibriumInput
  cases cq.zeroCentered <;> simp

/-- a background density of 1 and the populations 1, 0, 1 with directions 0, 1, -1: the deviation of the density is 1 -/
example : ∃ F, (⟨true, false, 1, none⟩ : Cqc ℚ 1).inputs (![![0], ![1], ![-1]] : Fin 3 → Fin 1 → ℚ) (some 2) (some ![-1 / 2]) = .ok F ∧
    F ![1, 0, 1] = (⟨true, false, 1, none⟩ : Cqc ℚ 1).equilibriumInput ![![0], ![1], ![-1]] ![1, 0, 1] ∧ (F ![1, 0, 1]).deltaRho = 1 := by
  obtain ⟨F, h, k⟩ := C108_input_both (⟨true, false, 1, none⟩ : Cqc ℚ 1) (![![0], ![1], ![-1]] : Fin 3 → Fin 1 → ℚ) 2 ![-1 / 2]
  obtain ⟨-, -, k3, k4⟩ := k ![1, 0, 1]
  refine ⟨F, h, k4 ?_ ?_, by linarith⟩
  · simp [Cqc.equilibriumInput, Fin.sum_univ_three]; norm_num
  · funext a
    fin_cases a
    simp [Cqc.equilibriumInput, Cqc.reference, Fin.sum_univ_three]; norm_num

theorem lattice_ok7 : ∀ e ∈ Tables.predefined, e.2.2.length ∈ [7, 9, 15, 19, 27] →
    (lattice e.2.2).Valid ∧ (lattice e.2.2).InvClosed ∧ ∀ i a, dirs e.2.2 i a = -1 ∨ dirs e.2.2 i a = 0 ∨ dirs e.2.2 i a = 1 := by
  have key : ∀ e ∈ Tables.predefined, decide (e.2.2.length ∈ [7] →
    (lattice e.2.2).Valid ∧ (lattice e.2.2).InvClosed ∧ ∀ i a, dirs e.2.2 i a = -1 ∨ dirs e.2.2 i a = 0 ∨ dirs e.2.2 i a = 1) =
      true := by decide +kernel
  intro e he h
  by_cases h7 : e.2.2.length ∈ [7]
  · exact of_decide_eq_true (key e he) h7
  · refine lattice_ok_aux e he ?_
    simp only [List.mem_cons, List.not_mem_nil, or_false] at h h7 ⊢
    omega

theorem rule_parts {Q : ℕ} {r f feq : Fin Q → K} {inv : Fin Q → Fin Q} {ωe ωo : K} (hinv2 : ∀ q, inv (inv q) = q)
    (h : ∀ q, (r q + r (inv q)) / 2 = (f q + f (inv q)) / 2 + ωe * ((feq q + feq (inv q)) / 2 - (f q + f (inv q)) / 2) ∧
      (r q - r (inv q)) / 2 = (f q - f (inv q)) / 2 + ωo * ((feq q - feq (inv q)) / 2 - (f q - f (inv q)) / 2)) (φ : Fin Q → K) :
    ((∀ q, φ (inv q) = φ q) → ∑ q, φ q * r q = ∑ q, φ q * f q + ωe * (∑ q, φ q * feq q - ∑ q, φ q * f q)) ∧
    ((∀ q, φ (inv q) = -φ q) → ∑ q, φ q * r q = ∑ q, φ q * f q + ωo * (∑ q, φ q * feq q - ∑ q, φ q * f q)) := by
  have hbij : Function.Bijective inv := (show Function.Involutive inv from hinv2).bijective
  have sw : ∀ p : Fin Q → K, ∑ q, φ (inv q) * p (inv q) = ∑ q, φ q * p q := fun p =>
    hbij.sum_comp fun q => φ q * p q
  constructor
  · intro hφ
    have sw' : ∀ p : Fin Q → K, ∑ q, φ q * p (inv q) = ∑ q, φ q * p q := fun p => by
      rw [← sw p]; exact Finset.sum_congr rfl fun q _ => by rw [hφ]
    have e : ∑ q, φ q * ((r q + r (inv q)) / 2) =
        ∑ q, φ q * ((f q + f (inv q)) / 2 + ωe * ((feq q + feq (inv q)) / 2 - (f q + f (inv q)) / 2)) :=
      Finset.sum_congr rfl fun q _ => by rw [(h q).1]
    have half : ∀ p : Fin Q → K, ∑ q, φ q * ((p q + p (inv q)) / 2) = ∑ q, φ q * p q := fun p => by
      have : ∀ q, φ q * ((p q + p (inv q)) / 2) = (φ q * p q + φ q * p (inv q)) / 2 := fun q => by ring
      simp only [this]
      rw [← Finset.sum_div, Finset.sum_add_distrib, sw' p]; ring
    rw [half] at e
    rw [e]
    simp only [mul_add, Finset.sum_add_distrib, half, mul_sub, Finset.sum_sub_distrib, mul_left_comm _ ωe, ← Finset.mul_sum]
  · intro hφ
    have sw' : ∀ p : Fin Q → K, ∑ q, φ q * p (inv q) = -∑ q, φ q * p q := fun p => by
      rw [← sw p, ← Finset.sum_neg_distrib]; exact Finset.sum_congr rfl fun q _ => by rw [hφ]; ring
    have e : ∑ q, φ q * ((r q - r (inv q)) / 2) =
        ∑ q, φ q * ((f q - f (inv q)) / 2 + ωo * ((feq q - feq (inv q)) / 2 - (f q - f (inv q)) / 2)) :=
      Finset.sum_congr rfl fun q _ => by rw [(h q).2]
    have half : ∀ p : Fin Q → K, ∑ q, φ q * ((p q - p (inv q)) / 2) = ∑ q, φ q * p q := fun p => by
      have : ∀ q, φ q * ((p q - p (inv q)) / 2) = (φ q * p q - φ q * p (inv q)) / 2 := fun q => by ring
      simp only [this]
      rw [← Finset.sum_div, Finset.sum_sub_distrib, sw' p]; ring
    rw [half] at e
    rw [e]
    simp only [mul_add, Finset.sum_add_distrib, half, mul_sub, Finset.sum_sub_distrib, mul_left_comm _ ωo, ← Finset.mul_sum]

/-- the rule of `create_trt` with a given velocity, for pairs of opposite directions -/
theorem input_trt {e} (he : e ∈ Tables.predefined) (hvl : (lattice e.2.2).Valid) (ps ps' : List PExpr)
    (hps : ps ∈ defaultMomentSet (e.2.2.headD []).length e.2.2.length) (hperm : ps'.Perm ps) (ωe ωo : K)
    (o : MaxwellOptions K e.2.2) (hrel : o.relax = trtRates ps' ωe ωo) (cq : Cqc K (e.2.2.headD []).length)
    (hforce : o.force = none) (hz : cq.zeroCentered = o.deviationOnly)
    (inv : Fin e.2.2.length → Fin e.2.2.length) (hinv : ∀ i, dirs e.2.2 (inv i) = -dirs e.2.2 i)
    (input : (Fin e.2.2.length → K) → Macro K (e.2.2.headD []).length) :
    (∀ q, inv (inv q) = q) ∧ ∃ r, (withInput o cq input).getCollisionRule = .ok r ∧ ∀ f q,
      (r f q + r f (inv q)) / 2 = (f q + f (inv q)) / 2 +
        ωe * (((o.populations cq.compressible (input f)).getD q 0 + (o.populations cq.compressible (input f)).getD (inv q) 0) / 2 -
          (f q + f (inv q)) / 2) ∧
      (r f q - r f (inv q)) / 2 = (f q - f (inv q)) / 2 +
        ωo * (((o.populations cq.compressible (input f)).getD q 0 - (o.populations cq.compressible (input f)).getD (inv q) 0) / 2 -
          (f q - f (inv q)) / 2) := by
  have hinv2 : ∀ q, inv (inv q) = q := fun q => hvl (by show dirs _ _ = dirs _ _; rw [hinv, hinv, neg_neg])
  have h3D := predefined_dim_le e he
  have rect := predefined_rectangular e he
  have hinv3 : ∀ q (i : Fin 3), (e.2.2.get (inv q)).getD i 0 = -(e.2.2.get q).getD i 0 := by
    intro q i
    by_cases hi : i.val < (e.2.2.headD []).length
    · exact congrFun (hinv q) ⟨i, hi⟩
    · have l1 := rect _ (List.get_mem e.2.2 (inv q))
      have l2 := rect _ (List.get_mem e.2.2 q)
      rw [List.getD_eq_default _ _ (by omega), List.getD_eq_default _ _ (by omega), neg_zero]
  refine ⟨hinv2, ?_⟩
  refine C38_create_trt e he ps hps ps' hperm ωe ωo (withInput o cq input) hrel (fun _ _ => rfl) hforce ?_
    (fun f q => (o.populations cq.compressible (input f)).getD q 0) (fun _ _ _ => rfl) inv hinv2 hinv3
  show cq.zeroCentered = false ∨ o.deviationOnly = true
  rw [hz]
  cases o.deviationOnly <;> simp

/-- C108. `create_trt` with `velocity_input`: mass is conserved whatever the velocity, the first moments relax with the odd rate to
the flux of the given velocity, the second moments with the even rate. -/
theorem C108_velocity_input {e} (he : e ∈ Tables.predefined) (hQ : e.2.2.length ∈ [7, 9, 15, 19, 27]) (ps ps' : List PExpr)
    (hps : ps ∈ defaultMomentSet (e.2.2.headD []).length e.2.2.length) (hperm : ps'.Perm ps) (ωe ωo : K)
    (o : MaxwellOptions K e.2.2) (hrel : o.relax = trtRates ps' ωe ωo) (cq : Cqc K (e.2.2.headD []).length)
    (hw : getWeights e.2.2 = some o.weights) (ho : o.order.getD 4 ≤ 1 ∨ e.2.2.length ≠ 7) (hforce : o.force = none)
    (hz : cq.zeroCentered = false) (hd : o.deviationOnly = false) (U : Fin (e.2.2.headD []).length → K) :
    ∃ r, inputRule o cq none (some U) = .ok r ∧ ∀ f,
      ∑ i, r f i = ∑ i, f i ∧
      (∀ a, dirMoment (dirs e.2.2) (fun v => v a) (r f) = dirMoment (dirs e.2.2) (fun v => v a) f +
        ωo * ((if cq.compressible then ∑ i, f i else 1) * U a - dirMoment (dirs e.2.2) (fun v => v a) f)) ∧
      ∀ a, U a = 0 → dirMoment (dirs e.2.2) (fun v => v a ^ 2) (r f) = dirMoment (dirs e.2.2) (fun v => v a ^ 2) f +
        ωe * ((∑ i, f i) / 3 - dirMoment (dirs e.2.2) (fun v => v a ^ 2) f) := by
  obtain ⟨hvl, hcl, -⟩ := lattice_ok7 e he hQ
  obtain ⟨hl, h3, h5'⟩ := C20_weights_isotropic (K := K) e he o.weights hw
  obtain ⟨inv, -, hinv, -, -⟩ := exists_inv hvl hcl
  obtain ⟨hinv2, r, hr, h38⟩ := input_trt he hvl ps ps' hps hperm ωe ωo o hrel cq hforce (by rw [hz, hd]) inv hinv
    (fun f => { cq.equilibriumInput (vel e.2.2 _) f with u := U })
  have hGH : (g2 (o.order.getD 4) = (0 : K) ∧ g3 (o.order.getD 4) = (0 : K)) ∨
      Isotropic5 (vel e.2.2 (e.2.2.headD []).length) (weightVec (K := K) e.2.2 o.weights) (1 / 3) := by
    rcases ho with ho | ho
    · left; unfold g2 g3; rw [if_pos (by omega), if_pos (by omega)]; exact ⟨rfl, rfl⟩
    · exact Or.inr (h5' ho)
  have hcs : (1 / 3 : K) ≠ 0 := by norm_num
  refine ⟨r, hr, fun f => ?_⟩
  obtain ⟨x, hx⟩ : ∃ x : Macro K (e.2.2.headD []).length, x = { cq.equilibriumInput (vel e.2.2 _) f with u := U } := ⟨_, rfl⟩
  have hrho : x.rho = ∑ i, f i := by
    rw [hx]; unfold Cqc.equilibriumInput; simp [hz]
  have hu : x.u = U := by rw [hx]
  have P := fun q => populations_eq he o hw cq.compressible x q
  simp only [hd, Bool.false_eq_true, if_false, sub_zero] at P
  rw [hrho, hu] at P
  have hio : rhoOut cq.compressible (∑ i, f i) * rhoIn cq.compressible (∑ i, f i) = ∑ i, f i := by
    cases cq.compressible <;> simp [rhoOut, rhoIn]
  have parts := fun φ => rule_parts hinv2 (h38 f) φ
  rw [← hx] at parts
  simp only [P] at parts
  refine ⟨?_, fun a => ?_, fun a ha => ?_⟩
  · have := (parts fun _ => 1).1 fun _ => rfl
    simp only [one_mul] at this
    rw [this, eqPoly_m0 h3 hcs, hio]; ring
  · have := (parts fun q => ((dirs e.2.2 q a : ℤ) : K)).2 fun q => by
      rw [show dirs e.2.2 (inv q) = -dirs e.2.2 q from hinv q]; push_cast [Pi.neg_apply]; rfl
    have m1 := eqPoly_m1 h3 hcs (rhoOut cq.compressible (∑ i, f i)) (rhoIn cq.compressible (∑ i, f i)) (g2 (o.order.getD 4))
      (g3 (o.order.getD 4)) U a (hGH.imp (·.2) id)
    unfold dirMoment
    rw [this]
    exact congrArg (fun t => _ + ωo * (t - _)) m1
  · have := (parts fun q => (((dirs e.2.2 q a) ^ 2 : ℤ) : K)).1 fun q => by
      rw [show dirs e.2.2 (inv q) = -dirs e.2.2 q from hinv q]; push_cast [Pi.neg_apply]; ring
    have m2 := eqPoly_m2 h3 hcs (rhoOut cq.compressible (∑ i, f i)) (rhoIn cq.compressible (∑ i, f i)) (g2 (o.order.getD 4))
      (g3 (o.order.getD 4)) U a a hGH
    have d5 : (δ a a : K) = 1 := by unfold δ; rw [if_pos rfl]
    unfold dirMoment
    rw [this]
    refine congrArg (fun t => _ + ωe * (t - _)) (Eq.trans (Finset.sum_congr rfl fun q _ => ?_) (m2.trans ?_))
    · rw [← sq]; push_cast; rfl
    · rw [ha, d5]; linear_combination (1 / 3 : K) * hio

/-- C108. What diffusion between plates sees of `create_trt` with `velocity_input` along the plates. -/
theorem C108_trt {e} (he : e ∈ Tables.predefined) (hQ : e.2.2.length ∈ [7, 9, 15, 19, 27]) (ps ps' : List PExpr)
    (hps : ps ∈ defaultMomentSet (e.2.2.headD []).length e.2.2.length) (hperm : ps'.Perm ps) (ωe ωo : K)
    (o : MaxwellOptions K e.2.2) (hrel : o.relax = trtRates ps' ωe ωo) (cq : Cqc K (e.2.2.headD []).length)
    (hw : getWeights e.2.2 = some o.weights) (ho : o.order.getD 4 ≤ 1 ∨ e.2.2.length ≠ 7) (hforce : o.force = none)
    (hz : cq.zeroCentered = false) (hd : o.deviationOnly = false) (U : Fin (e.2.2.headD []).length → K)
    (b : Fin (e.2.2.headD []).length) (hU : U b = 0) :
    ∃ r, inputRule o cq none (some U) = .ok r ∧ ∀ f, PlateDiffusion (dirs e.2.2) b ωe ωo r f := by
  obtain ⟨r, hr, h⟩ := C108_velocity_input he hQ ps ps' hps hperm ωe ωo o hrel cq hw ho hforce hz hd U
  refine ⟨r, hr, fun f => ?_⟩
  obtain ⟨h1, h2, h3⟩ := h f
  refine ⟨h1, ?_, h3 b hU⟩
  rw [h2 b, hU]; ring

end Method

/-! ### Plates with given concentration -/

section Walls
variable {K : Type} [Field K] [CharZero K] [DecidableEq K]

/-- concentration of the plate a link leads to: `C₀` for the plate below the first row, `C₁` for the plate above the last row -/
def plateValue (st : List (List ℤ)) (b : Fin (st.headD []).length) (C₀ C₁ : K) (j : Fin st.length) : K :=
  if dirs st j b < 0 then C₀ else C₁

/-- what comes back from plates with `DiffusionDirichlet`; `conc` and `u` are the arguments `concentration` and `velocity_field` -/
def dirichletPlates (st : List (List ℤ)) (ws : List ℚ) (inv : Fin st.length → Fin st.length) (b : Fin (st.headD []).length)
    (C₀ C₁ : K) (u : Option (Vec (st.headD []).length → Fin (st.headD []).length → K)) :
    Vec (st.headD []).length → Fin st.length → (Fin st.length → K) → K :=
  fun x i f => diffusionDirichletRule (S := lattice st) (weightVec st ws) (fun _ j => plateValue st b C₀ C₁ j) u x (inv i)
    (fun _ => f) (fun _ => f)

theorem half_weights {e} (he : e ∈ Tables.predefined) (hQ : e.2.2.length ∈ [7, 9, 15, 19, 27]) (ws : List ℚ)
    (hws : getWeights e.2.2 = some ws) (b : Fin (e.2.2.headD []).length) (s : ℤ) (hs : s * s = 1) :
    (∑ i, (if dirs e.2.2 i b = s then weightVec (K := K) e.2.2 ws i else 0) = 1 / 6) ∧
    (e.2.2.length ≠ 7 → ∀ u : Fin (e.2.2.headD []).length → K, u b = 0 →
      ∑ i, (if dirs e.2.2 i b = s then weightVec (K := K) e.2.2 ws i * dot (vel e.2.2 _ i) u ^ 2 else 0) = dot u u / 18) := by
  obtain ⟨hl, h3, h5'⟩ := C20_weights_isotropic (K := K) e he ws hws
  obtain ⟨-, -, hc1⟩ := lattice_ok7 e he hQ
  have d5 : (δ b b : K) = 1 := by unfold δ; rw [if_pos rfl]
  have ind : ∀ i (y : K), (if dirs e.2.2 i b = s then y else 0) = (vel e.2.2 _ i b * vel e.2.2 _ i b + s * vel e.2.2 _ i b) / 2 * y := by
    intro i y
    have e1 : vel (K := K) e.2.2 (e.2.2.headD []).length i b = (dirs e.2.2 i b : ℤ) := rfl
    rw [e1]
    have hs2 : s = 1 ∨ s = -1 := by
      have : (s - 1) * (s + 1) = 0 := by linarith
      rcases mul_eq_zero.1 this with h | h <;> omega
    rcases hs2 with rfl | rfl <;> rcases hc1 i b with h | h | h <;> rw [h] <;> norm_num
  constructor
  · have e1 : ∀ i, (if dirs e.2.2 i b = s then weightVec (K := K) e.2.2 ws i else 0) =
        1 / 2 * (weightVec e.2.2 ws i * vel e.2.2 _ i b * vel e.2.2 _ i b) + s / 2 * (weightVec e.2.2 ws i * vel e.2.2 _ i b) := by
      intro i; rw [ind]; ring
    simp only [e1, Finset.sum_add_distrib, ← Finset.mul_sum]
    rw [h3.m2, h3.m1, d5]; norm_num
  · intro h7 u hu
    have h5 := h5' h7
    have e1 : ∀ i, (if dirs e.2.2 i b = s then weightVec (K := K) e.2.2 ws i * dot (vel e.2.2 _ i) u ^ 2 else 0) =
        1 / 2 * (weightVec e.2.2 ws i * dot (vel e.2.2 _ i) (fun d => δ b d) * dot (vel e.2.2 _ i) (fun d => δ b d) *
          dot (vel e.2.2 _ i) u * dot (vel e.2.2 _ i) u) +
        s / 2 * (weightVec e.2.2 ws i * dot (vel e.2.2 _ i) (fun d => δ b d) * dot (vel e.2.2 _ i) u * dot (vel e.2.2 _ i) u) := by
      intro i; rw [ind, ← comp_eq_dot]; ring
    simp only [e1, Finset.sum_add_distrib, ← Finset.mul_sum]
    rw [h5.c4, h3.c3]
    simp only [dot_δ, hu, d5]
    ring

/-- C108. What `DiffusionDirichlet` without `velocity_field` sends back is, to diffusion, a plate with the given concentration. With a
velocity `u` along the plates it is a plate with concentration `C (1 + 9 u²)`, since the code takes 1/3 for the speed of sound where
the formula has its square. -/
theorem C108_dirichlet {e} (he : e ∈ Tables.predefined) (hQ : e.2.2.length ∈ [7, 9, 15, 19, 27]) (ws : List ℚ)
    (hws : getWeights e.2.2 = some ws) (inv : Fin e.2.2.length → Fin e.2.2.length)
    (hinv : ∀ i, dirs e.2.2 (inv i) = -dirs e.2.2 i) (b : Fin (e.2.2.headD []).length) (C₀ C₁ : K)
    (f : Fin e.2.2.length → K) (x : Vec (e.2.2.headD []).length) :
    (PlateSource (dirs e.2.2) b 1 inv C₀ (dirichletPlates e.2.2 ws inv b C₀ C₁ none x) f ∧
      PlateSource (dirs e.2.2) b (-1) inv C₁ (dirichletPlates e.2.2 ws inv b C₀ C₁ none x) f) ∧
    (e.2.2.length ≠ 7 → ∀ u : Vec (e.2.2.headD []).length → Fin (e.2.2.headD []).length → K, u x b = 0 →
      PlateSource (dirs e.2.2) b 1 inv (C₀ * (1 + 9 * ∑ k, u x k * u x k)) (dirichletPlates e.2.2 ws inv b C₀ C₁ (some u) x) f ∧
      PlateSource (dirs e.2.2) b (-1) inv (C₁ * (1 + 9 * ∑ k, u x k * u x k)) (dirichletPlates e.2.2 ws inv b C₀ C₁ (some u) x) f) := by
  have hwi : ∀ i, weightVec (K := K) e.2.2 ws (inv i) = weightVec e.2.2 ws i := fun i => weightVec_inv he ws hws i (inv i) (hinv i)
  have val : ∀ s : ℤ, s = 1 ∨ s = -1 → ∀ i, dirs e.2.2 i b = s → plateValue e.2.2 b C₀ C₁ (inv i) = if s = 1 then C₀ else C₁ := by
    intro s hs i hi
    unfold plateValue
    rw [hinv, Pi.neg_apply, hi]
    rcases hs with rfl | rfl <;> norm_num
  have none' : ∀ s : ℤ, s = 1 ∨ s = -1 →
      PlateSource (dirs e.2.2) b s inv (if s = 1 then C₀ else C₁) (dirichletPlates e.2.2 ws inv b C₀ C₁ none x) f := by
    intro s hs
    have k := (half_weights (K := K) he hQ ws hws b s (by rcases hs with rfl | rfl <;> norm_num)).1
    unfold PlateSource
    refine Eq.trans (b := 2 * (if s = 1 then C₀ else C₁) * ∑ i, (if dirs e.2.2 i b = s then weightVec (K := K) e.2.2 ws i else 0)) ?_
      (by rw [k]; ring)
    rw [Finset.mul_sum]
    refine Finset.sum_congr rfl fun i _ => ?_
    by_cases hi : dirs e.2.2 i b = s
    · rw [if_pos hi, if_pos hi]
      simp only [dirichletPlates, diffusionDirichletRule]
      rw [val s hs i hi, hwi]
      ring
    · rw [if_neg hi, if_neg hi, mul_zero]
  have some' : e.2.2.length ≠ 7 → ∀ u : Vec (e.2.2.headD []).length → Fin (e.2.2.headD []).length → K, u x b = 0 →
      ∀ s : ℤ, s = 1 ∨ s = -1 → PlateSource (dirs e.2.2) b s inv ((if s = 1 then C₀ else C₁) * (1 + 9 * ∑ k, u x k * u x k))
        (dirichletPlates e.2.2 ws inv b C₀ C₁ (some u) x) f := by
    intro h7 u hu s hs
    obtain ⟨k1, k2⟩ := half_weights (K := K) he hQ ws hws b s (by rcases hs with rfl | rfl <;> norm_num)
    have k2 := k2 h7 (u x) hu
    have hdot : dot (u x) (u x) = ∑ k, u x k * u x k := rfl
    unfold PlateSource
    refine Eq.trans (b := 2 * (if s = 1 then C₀ else C₁) * (1 - 9 / 2 * dot (u x) (u x)) *
        (∑ i, (if dirs e.2.2 i b = s then weightVec (K := K) e.2.2 ws i else 0)) +
        81 * (if s = 1 then C₀ else C₁) *
          ∑ i, (if dirs e.2.2 i b = s then weightVec (K := K) e.2.2 ws i * dot (vel e.2.2 _ i) (u x) ^ 2 else 0)) ?_
      (by rw [k1, k2, hdot]; ring)
    rw [Finset.mul_sum, Finset.mul_sum, ← Finset.sum_add_distrib]
    refine Finset.sum_congr rfl fun i _ => ?_
    by_cases hi : dirs e.2.2 i b = s
    · rw [if_pos hi, if_pos hi, if_pos hi]
      simp only [dirichletPlates, diffusionDirichletRule]
      rw [val s hs i hi, hwi]
      have hd : ∑ k, ((dirs e.2.2 (inv i) k : ℤ) : K) * u x k = -dot (vel e.2.2 _ i) (u x) := by
        rw [hinv]
        unfold dot
        rw [← Finset.sum_neg_distrib]
        refine Finset.sum_congr rfl fun k _ => ?_
        show ((-(dirs e.2.2 i k) : ℤ) : K) * _ = -(((dirs e.2.2 i k : ℤ) : K) * _)
        push_cast; ring
      have hd' : (∑ k, ((dirs e.2.2 (inv i) k : ℤ) : K) * u x k) ^ 2 = dot (vel e.2.2 _ i) (u x) ^ 2 := by rw [hd]; ring
      rw [hd', hdot]
      ring
    · rw [if_neg hi, if_neg hi, if_neg hi]; ring
  refine ⟨⟨?_, ?_⟩, fun h7 u hu => ⟨?_, ?_⟩⟩
  · simpa using none' 1 (Or.inl rfl)
  · simpa using none' (-1) (Or.inr rfl)
  · simpa using some' h7 u hu 1 (Or.inl rfl)
  · simpa using some' h7 u hu (-1) (Or.inr rfl)

/-- C108. A simulation of diffusion between plates: the rules in the rows are those of `create_trt` with `velocity_input` along the
plates (any field of velocities that is the same in a row). In `collide_stream` order, if a time step changes nothing and the state is
the same in all cells of a row, the density that is reported is the linear profile between the concentrations of the plates. -/
theorem C108_simulation {e} (he : e ∈ Tables.predefined) (hQ : e.2.2.length ∈ [7, 9, 15, 19, 27]) (ps ps' : List PExpr)
    (hps : ps ∈ defaultMomentSet (e.2.2.headD []).length e.2.2.length) (hperm : ps'.Perm ps) (ωe ωo : K)
    (h0 : ωe ≠ 0) (hf0 : ωo ≠ 0) (hf2 : ωo ≠ 2)
    (o : MaxwellOptions K e.2.2) (hrel : o.relax = trtRates ps' ωe ωo) (cq : Cqc K (e.2.2.headD []).length)
    (hw : getWeights e.2.2 = some o.weights) (ho : o.order.getD 4 ≤ 1 ∨ e.2.2.length ≠ 7) (hforce : o.force = none)
    (hz : cq.zeroCentered = false) (hd : o.deviationOnly = false) (b : Fin (e.2.2.headD []).length)
    (size : Fin (e.2.2.headD []).length → ℕ) (hs : ∀ d, 0 < size d)
    (U : Vec (e.2.2.headD []).length → Fin (e.2.2.headD []).length → K) (hU : ∀ x ∈ (channel size b).fluid, U x b = 0)
    (hUr : ∀ x ∈ (channel size b).fluid, ∀ y ∈ (channel size b).fluid, x b = y b → U x = U y)
    (inv : Fin e.2.2.length → Fin e.2.2.length) (hinv : ∀ i, dirs e.2.2 (inv i) = -dirs e.2.2 i) (C₀ C₁ : K)
    (p : Step (lattice e.2.2) K) (hp : SetUp (channel size b) (dirichletPlates e.2.2 o.weights inv b C₀ C₁ none) p)
    (hr : ∀ x ∈ (channel size b).fluid, inputRule o cq none (some (U x)) = .ok (p.collide x)) (pattern : String)
    (s s' : Pdfs (e.2.2.headD []).length e.2.2.length K × Pdfs (e.2.2.headD []).length e.2.2.length K)
    (hrow : ∀ x ∈ (channel size b).fluid, ∀ y ∈ (channel size b).fluid, x b = y b → ∀ i, s.1 (x, i) = s.1 (y, i))
    (step : p.steps pattern .collideStream 1 s = some s')
    (steady : ∀ x ∈ (channel size b).fluid, ∀ i, s'.1 (x, i) = s.1 (x, i)) (csSq : K) :
    ∀ x ∈ (channel size b).fluid,
      (cq.output csSq (vel e.2.2 _) fun i => s.1 (x, i)).density = planeCouette C₀ C₁ (size b) (x b + 1 / 2) ∧
      (1 - ωo / 2) * dirMoment (dirs e.2.2) (fun v => v b) (fun i => s.1 (x, i)) =
        -((1 / ωo - 1 / 2) / 3) * ((C₁ - C₀) / size b) := by
  obtain ⟨hv, hc, hc1⟩ := lattice_ok7 e he hQ
  obtain ⟨s2, st2, h⟩ := C105_collide_stream hv hc (channel_closed size b _) hp pattern 1 s
  rw [step] at st2
  obtain rfl := Option.some.inj st2
  have hst : ∀ x ∈ (channel size b).fluid,
      (channel size b).collideStream (dirs e.2.2) (dirichletPlates e.2.2 o.weights inv b C₀ C₁ none) p.collide
        (fun x i => s.1 (x, i)) x = fun i => s.1 (x, i) := by
    intro x hx
    have := h x hx
    rw [Function.iterate_one] at this
    rw [← this]
    exact funext fun i => steady x hx i
  intro x hx
  have key := C108_profile hv hinv (fun i => hc1 i b) hs
    (fun x hx y hy hxy => funext fun i => hrow x hx y hy hxy i)
    (fun x hx y hy hxy => by
      have h1 := hr x hx
      rw [hUr x hx y hy hxy, hr y hy] at h1
      exact (Except.ok.inj h1).symm)
    hst C₀ C₁
    (fun x _ _ => (C108_dirichlet he hQ o.weights hw inv hinv b C₀ C₁ _ x).1.1)
    (fun x _ _ => (C108_dirichlet he hQ o.weights hw inv hinv b C₀ C₁ _ x).1.2)
    ωe ωo h0 hf0 hf2
    (fun x hx => by
      obtain ⟨r, h1, h2⟩ := C108_trt he hQ ps ps' hps hperm ωe ωo o hrel cq hw ho hforce hz hd (U x) b (hU x hx)
      rw [hr x hx] at h1
      rw [Except.ok.inj h1]
      exact h2 _) x hx
  refine ⟨Eq.trans ?_ key.1, key.2⟩
  simp only [Cqc.output, hz]; simp

/-- C108. The same with the default order `stream_collide`, whose populations are those after the collision. -/
theorem C108_simulation_default {e} (he : e ∈ Tables.predefined) (hQ : e.2.2.length ∈ [7, 9, 15, 19, 27]) (ps ps' : List PExpr)
    (hps : ps ∈ defaultMomentSet (e.2.2.headD []).length e.2.2.length) (hperm : ps'.Perm ps) (ωe ωo : K)
    (h0 : ωe ≠ 0) (hf0 : ωo ≠ 0) (hf2 : ωo ≠ 2)
    (o : MaxwellOptions K e.2.2) (hrel : o.relax = trtRates ps' ωe ωo) (cq : Cqc K (e.2.2.headD []).length)
    (hw : getWeights e.2.2 = some o.weights) (ho : o.order.getD 4 ≤ 1 ∨ e.2.2.length ≠ 7) (hforce : o.force = none)
    (hz : cq.zeroCentered = false) (hd : o.deviationOnly = false) (b : Fin (e.2.2.headD []).length)
    (size : Fin (e.2.2.headD []).length → ℕ) (hs : ∀ d, 0 < size d)
    (U : Vec (e.2.2.headD []).length → Fin (e.2.2.headD []).length → K) (hU : ∀ x ∈ (channel size b).fluid, U x b = 0)
    (hUr : ∀ x ∈ (channel size b).fluid, ∀ y ∈ (channel size b).fluid, x b = y b → U x = U y)
    (inv : Fin e.2.2.length → Fin e.2.2.length) (hinv : ∀ i, dirs e.2.2 (inv i) = -dirs e.2.2 i) (C₀ C₁ : K)
    (p : Step (lattice e.2.2) K) (hp : SetUp (channel size b) (dirichletPlates e.2.2 o.weights inv b C₀ C₁ none) p)
    (hr : ∀ x ∈ (channel size b).fluid, inputRule o cq none (some (U x)) = .ok (p.collide x))
    (s s' : Pdfs (e.2.2.headD []).length e.2.2.length K × Pdfs (e.2.2.headD []).length e.2.2.length K)
    (hrow : ∀ x ∈ (channel size b).fluid, ∀ y ∈ (channel size b).fluid, x b = y b → ∀ i, s.1 (x, i) = s.1 (y, i))
    (step : p.steps "pull" .streamCollide 1 s = some s')
    (steady : ∀ x ∈ (channel size b).fluid, ∀ i, s'.1 (x, i) = s.1 (x, i)) (csSq : K) :
    ∀ x ∈ (channel size b).fluid,
      (cq.output csSq (vel e.2.2 _) fun i => s.1 (x, i)).density = planeCouette C₀ C₁ (size b) (x b + 1 / 2) := by
  obtain ⟨hv, hc, hc1⟩ := lattice_ok7 e he hQ
  have hcl := channel_closed size b (dirs e.2.2)
  obtain ⟨s2, st2, h⟩ := C105_stream_collide hv hc hcl hp 1 s
  rw [step] at st2
  obtain rfl := Option.some.inj st2
  obtain ⟨g, hg⟩ : ∃ g : Vec _ → Fin e.2.2.length → K, g = fun x i => s.1 (x, i) := ⟨_, rfl⟩
  have hst : ∀ x ∈ (channel size b).fluid,
      (channel size b).streamCollide (dirs e.2.2) (dirichletPlates e.2.2 o.weights inv b C₀ C₁ none) p.collide g x = g x := by
    intro x hx
    have := h x hx
    rw [Function.iterate_one, ← hg] at this
    refine this.symm.trans ?_
    rw [hg]
    exact funext fun i => steady x hx i
  have hst2 := C105_steady (S := lattice e.2.2) hcl g p.collide hst
  obtain ⟨G, hG⟩ : ∃ G, G = (channel size b).stream (dirs e.2.2) (dirichletPlates e.2.2 o.weights inv b C₀ C₁ none) g := ⟨_, rfl⟩
  have hrowG : ∀ x ∈ (channel size b).fluid, ∀ y ∈ (channel size b).fluid, x b = y b → G x = G y := by
    intro x hx y hy hxy
    rw [hG]
    funext i
    unfold Domain.stream
    have hw : (channel size b).wall (x - dirs e.2.2 i) ↔ (channel size b).wall (y - dirs e.2.2 i) := by
      show (_ ∨ _) ↔ (_ ∨ _)
      rw [Pi.sub_apply, Pi.sub_apply, hxy]
    by_cases hwx : (channel size b).wall (x - dirs e.2.2 i)
    · rw [if_pos hwx, if_pos (hw.1 hwx), hg]
      exact congrArg (fun f => dirichletPlates e.2.2 o.weights inv b C₀ C₁ none x i f) (funext fun i => hrow x hx y hy hxy i)
    · rw [if_neg hwx, if_neg (fun h => hwx (hw.2 h)), hg]
      have mem : ∀ z ∈ (channel size b).fluid, ¬ (channel size b).wall (z - dirs e.2.2 i) →
          (channel size b).image (z - dirs e.2.2 i) ∈ (channel size b).fluid := by
        intro z hz hwz
        by_contra hn
        have hin : (channel size b).Inner ((channel size b).image (z - dirs e.2.2 i)) := by
          by_contra hin
          exact hwz ((hcl z hz i).2 hin)
        exact hn ⟨hin, fun hw => hwz (((hcl z hz i).1 hin).2 hw)⟩
      refine hrow _ (mem x hx hwx) _ (mem y hy fun h => hwx (hw.2 h)) ?_ i
      simp [Domain.image, channel, hxy]
  have hdiff : ∀ x ∈ (channel size b).fluid, ∀ f, PlateDiffusion (dirs e.2.2) b ωe ωo (p.collide x) f := by
    intro x hx f
    obtain ⟨r, h1, h2⟩ := C108_trt he hQ ps ps' hps hperm ωe ωo o hrel cq hw ho hforce hz hd (U x) b (hU x hx)
    rw [hr x hx] at h1
    rw [Except.ok.inj h1]
    exact h2 _
  intro x hx
  have key := C108_profile hv hinv (fun i => hc1 i b) hs hrowG
    (fun x hx y hy hxy => by
      have h1 := hr x hx
      rw [hUr x hx y hy hxy, hr y hy] at h1
      exact (Except.ok.inj h1).symm)
    (fun x hx => by rw [hG]; exact (hst2 x hx).1) C₀ C₁
    (fun x _ _ => (C108_dirichlet he hQ o.weights hw inv hinv b C₀ C₁ _ x).1.1)
    (fun x _ _ => (C108_dirichlet he hQ o.weights hw inv hinv b C₀ C₁ _ x).1.2)
    ωe ωo h0 hf0 hf2 (fun x hx => hdiff x hx _) x hx
  have hgx : (fun i => s.1 (x, i)) = p.collide x (G x) := by
    have := (hst2 x hx).2
    rw [hG]
    rw [← this, hg]
  have hm := (hdiff x hx (G x)).mass
  rw [← hgx, key.1] at hm
  refine Eq.trans ?_ hm
  simp only [Cqc.output, hz]; simp

/-- the rule of `create_trt` with the velocity zero -/
theorem rest_rule {e} (he : e ∈ Tables.predefined) (hvl : (lattice e.2.2).Valid) (ps ps' : List PExpr)
    (hps : ps ∈ defaultMomentSet (e.2.2.headD []).length e.2.2.length) (hperm : ps'.Perm ps) (ωe ωo : K)
    (o : MaxwellOptions K e.2.2) (hrel : o.relax = trtRates ps' ωe ωo) (cq : Cqc K (e.2.2.headD []).length)
    (hw : getWeights e.2.2 = some o.weights) (hforce : o.force = none) (hz : cq.zeroCentered = false)
    (hd : o.deviationOnly = false) (inv : Fin e.2.2.length → Fin e.2.2.length) (hinv : ∀ i, dirs e.2.2 (inv i) = -dirs e.2.2 i) :
    (∀ q, inv (inv q) = q) ∧ ∃ r, inputRule o cq none (some fun _ => 0) = .ok r ∧ ∀ f q,
      r f q = f q + ωe * (weightVec e.2.2 o.weights q * ∑ i, f i - (f q + f (inv q)) / 2) - ωo * ((f q - f (inv q)) / 2) := by
  obtain ⟨hinv2, r, hr, h38⟩ := input_trt he hvl ps ps' hps hperm ωe ωo o hrel cq hforce (by rw [hz, hd]) inv hinv
    (fun f => { cq.equilibriumInput (vel e.2.2 _) f with u := fun _ => 0 })
  obtain ⟨w, hwv⟩ : ∃ w, w = weightVec (K := K) e.2.2 o.weights := ⟨_, rfl⟩
  have winv : ∀ i, w (inv i) = w i := fun i => by rw [hwv]; exact weightVec_inv he o.weights hw i (inv i) (hinv i)
  rw [← hwv]
  refine ⟨hinv2, r, hr, ?_⟩
  · intro f q
    obtain ⟨x, hx⟩ : ∃ x : Macro K (e.2.2.headD []).length, x = { cq.equilibriumInput (vel e.2.2 _) f with u := fun _ => 0 } := ⟨_, rfl⟩
    have hrho : x.rho = ∑ i, f i := by
      rw [hx]; unfold Cqc.equilibriumInput; simp [hz]
    have hu : x.u = fun _ => 0 := by rw [hx]
    have P : ∀ q : Fin e.2.2.length, (o.populations cq.compressible x).getD q 0 = w q * ∑ i, f i := by
      intro q
      rw [populations_eq he o hw cq.compressible x q, hu, hrho, ← hwv]
      have hio : rhoOut cq.compressible (∑ i, f i) * rhoIn cq.compressible (∑ i, f i) = ∑ i, f i := by
        cases cq.compressible <;> simp [rhoOut, rhoIn]
      have z : dot (vel (K := K) e.2.2 (e.2.2.headD []).length q) (fun _ => 0) = 0 := by simp [dot]
      have z2 : dot (fun _ : Fin (e.2.2.headD []).length => (0 : K)) (fun _ => 0) = 0 := by simp [dot]
      simp only [hd, Bool.false_eq_true, if_false]
      unfold eqPoly
      rw [z, z2]
      linear_combination w q * hio
    obtain ⟨a1, a2⟩ := h38 f q
    rw [← hx, P, P, winv] at a1 a2
    linear_combination a1 + a2

/-- C108. There is such a state: methods with two relaxation times and the velocity zero, for all concentrations and rates. -/
theorem C108_exists {e} (he : e ∈ Tables.predefined) (hQ : e.2.2.length ∈ [7, 9, 15, 19, 27]) (ps ps' : List PExpr)
    (hps : ps ∈ defaultMomentSet (e.2.2.headD []).length e.2.2.length) (hperm : ps'.Perm ps) (ωe ωo : K) (hf0 : ωo ≠ 0)
    (o : MaxwellOptions K e.2.2) (hrel : o.relax = trtRates ps' ωe ωo) (cq : Cqc K (e.2.2.headD []).length)
    (hw : getWeights e.2.2 = some o.weights) (hforce : o.force = none)
    (hz : cq.zeroCentered = false) (hd : o.deviationOnly = false) (b : Fin (e.2.2.headD []).length)
    (size : Fin (e.2.2.headD []).length → ℕ) (hs : 0 < size b)
    (inv : Fin e.2.2.length → Fin e.2.2.length) (hinv : ∀ i, dirs e.2.2 (inv i) = -dirs e.2.2 i) (C₀ C₁ : K) :
    ∃ r, inputRule o cq none (some fun _ => 0) = .ok r ∧
      ∃ g : Vec (e.2.2.headD []).length → Fin e.2.2.length → K, (∀ x y, x b = y b → g x = g y) ∧
        ∀ x ∈ (channel size b).fluid, (channel size b).collideStream (dirs e.2.2)
          (dirichletPlates e.2.2 o.weights inv b C₀ C₁ none) (fun _ => r) g x = g x := by
  obtain ⟨hvl, -, hc1⟩ := lattice_ok7 e he hQ
  obtain ⟨hl, h3, -⟩ := C20_weights_isotropic (K := K) e he o.weights hw
  obtain ⟨hinv2, r, hr, lin'⟩ := rest_rule he hvl ps ps' hps hperm ωe ωo o hrel cq hw hforce hz hd inv hinv
  refine ⟨r, hr, ?_⟩
  obtain ⟨w, hwv⟩ : ∃ w, w = weightVec (K := K) e.2.2 o.weights := ⟨_, rfl⟩
  have winv : ∀ i, w (inv i) = w i := fun i => by rw [hwv]; exact weightVec_inv he o.weights hw i (inv i) (hinv i)
  have lin : ∀ f q, r f q = f q + ωe * (w q * ∑ i, f i - (f q + f (inv q)) / 2) - ωo * ((f q - f (inv q)) / 2) := by
    rw [hwv]; exact lin'
  have cneg : ∀ i, ((dirs e.2.2 (inv i) b : ℤ) : K) = -(dirs e.2.2 i b : ℤ) := by
    intro i; rw [hinv]; push_cast [Pi.neg_apply]; rfl
  obtain ⟨N, hN⟩ : ∃ N : K, N = size b := ⟨_, rfl⟩
  have hN0 : N ≠ 0 := by rw [hN]; exact_mod_cast hs.ne'
  obtain ⟨γ, hγ⟩ : ∃ γ, γ = (C₁ - C₀) / (N * ωo) := ⟨_, rfl⟩
  have hγ' : N * ωo * γ = C₁ - C₀ := by rw [hγ]; field_simp
  obtain ⟨G, hG⟩ : ∃ G : K → Fin e.2.2.length → K, G = fun m i => w i * (C₀ + ωo * γ * (m + 1 / 2) - γ * (dirs e.2.2 i b : ℤ)) := ⟨_, rfl⟩
  have m0 : ∀ m, ∑ i, G m i = C₀ + ωo * γ * (m + 1 / 2) := by
    intro m
    rw [hG]
    have e1 : ∀ i, w i * (C₀ + ωo * γ * (m + 1 / 2) - γ * (dirs e.2.2 i b : ℤ)) =
        (C₀ + ωo * γ * (m + 1 / 2)) * weightVec e.2.2 o.weights i - γ * (weightVec e.2.2 o.weights i * vel e.2.2 _ i b) := by
      intro i; rw [hwv]
      show _ = _ - γ * (_ * ((dirs e.2.2 i b : ℤ) : K))
      ring
    simp only [e1, Finset.sum_sub_distrib, ← Finset.mul_sum]
    rw [h3.m0, h3.m1]; ring
  have rG : ∀ m q, r (G m) q = w q * (C₀ + ωo * γ * (m + 1 / 2) - (1 - ωo) * γ * (dirs e.2.2 q b : ℤ)) := by
    intro m q
    rw [lin, m0, hG]
    simp only []
    rw [winv, cneg]
    ring
  refine ⟨fun x => G (x b), fun x y hxy => by simp only [hxy], fun x hx => ?_⟩
  funext i
  have hxb := mem_fluid.1 hx b
  have him : (channel size b).image (x - dirs e.2.2 i) b = x b - dirs e.2.2 i b := by simp [Domain.image, channel]
  have hwall : (channel size b).wall (x - dirs e.2.2 i) ↔ (x b - dirs e.2.2 i b < 0 ∨ size b ≤ x b - dirs e.2.2 i b) := Iff.rfl
  simp only [Domain.collideStream, Domain.stream, dirichletPlates, diffusionDirichletRule]
  rw [him, rG, rG, winv, cneg, ← hwv, winv, hG]
  beta_reduce
  have hbi : dirs e.2.2 (inv i) b = -dirs e.2.2 i b := congrFun (hinv i) b
  unfold plateValue
  rw [hbi]
  rcases hc1 i b with hb | hb | hb <;> rw [hb]
  · by_cases hlast : x b + 1 = size b
    · rw [if_pos (hwall.2 (Or.inr (by rw [hb]; omega)))]
      have : (x b : K) + 1 = N := by rw [hN]; exact_mod_cast hlast
      obtain rfl : N = (x b : K) + 1 := this.symm
      norm_num
      linear_combination (-2 : K) * w i * hγ'
    · rw [if_neg (fun h' => by rcases hwall.1 h' with h' | h' <;> rw [hb] at h' <;> omega)]
      push_cast
      ring
  · rw [if_neg (fun h' => by rcases hwall.1 h' with h' | h' <;> rw [hb] at h' <;> omega)]
    push_cast
    ring
  · by_cases hfirst : x b = 0
    · rw [if_pos (hwall.2 (Or.inl (by rw [hb]; omega))), hfirst]
      norm_num
      ring
    · rw [if_neg (fun h' => by rcases hwall.1 h' with h' | h' <;> rw [hb] at h' <;> omega)]
      push_cast
      ring

end Walls

/-! ### Example -/

namespace Example

/-- `create_trt` with rates 1 and 3/4, second order, compressible, absolute storage -/
def od : MaxwellOptions ℚ st where
  relax := trtRates ((defaultMomentSet 2 9).getD []) 1 (3 / 4)
  weights := (getWeights st).getD []
  order := some 2
  deviationOnly := false
  momentSpace := false
  force := none

def cqd : Cqc ℚ (st.headD []).length := ⟨true, false, 1, none⟩

/-- A channel of 4 x 3 cells between plates with concentrations 1 and 2, fluid at rest: there is a steady state, and every steady
state that is the same in all cells of a row has the concentrations 7/6, 3/2, 11/6. -/
example : ∃ r, inputRule od cqd none (some fun _ => 0) = .ok r ∧
    (∃ g : Vec (st.headD []).length → Fin st.length → ℚ, ∀ x ∈ (channel (fun d => if d.val = 0 then 4 else 3) ⟨1, by decide⟩).fluid,
      (channel (fun d => if d.val = 0 then 4 else 3) ⟨1, by decide⟩).collideStream (dirs st)
        (dirichletPlates st od.weights inv ⟨1, by decide⟩ 1 2 none) (fun _ => r) g x = g x) ∧
    ∀ g : Vec (st.headD []).length → Fin st.length → ℚ,
      (∀ x ∈ (channel (fun d => if d.val = 0 then 4 else 3) ⟨1, by decide⟩).fluid,
        (channel (fun d => if d.val = 0 then 4 else 3) ⟨1, by decide⟩).collideStream (dirs st)
          (dirichletPlates st od.weights inv ⟨1, by decide⟩ 1 2 none) (fun _ => r) g x = g x) →
      (∀ x y : Vec (st.headD []).length, x ⟨1, by decide⟩ = y ⟨1, by decide⟩ → g x = g y) →
      ∑ i, g (fun _ => 0) i = 7 / 6 ∧ ∑ i, g (fun _ => 1) i = 3 / 2 ∧ ∑ i, g (fun _ => 2) i = 11 / 6 := by
  have he : ("D2Q9", "uk", st) ∈ Tables.predefined := by decide +kernel
  have h9 : st.length ∈ [7, 9, 15, 19, 27] := by decide
  have hps : (defaultMomentSet 2 9).getD [] ∈ defaultMomentSet (st.headD []).length st.length := by decide +kernel
  have hinv : ∀ i, dirs st (inv i) = -dirs st i := by decide +kernel
  have hw : getWeights st = some od.weights := by decide +kernel
  obtain ⟨r, hr, g, -, hg⟩ := C108_exists he h9 _ _ hps (List.Perm.refl _) 1 (3 / 4) (by norm_num) od rfl cqd hw rfl rfl rfl
    ⟨1, by decide⟩ (fun d => if d.val = 0 then 4 else 3) (by decide) inv hinv 1 2
  obtain ⟨r', hr', hC⟩ := C108_trt he h9 _ _ hps (List.Perm.refl _) 1 (3 / 4) od rfl cqd hw (Or.inr (by decide)) rfl rfl rfl
    (fun _ => 0) ⟨1, by decide⟩ rfl
  obtain rfl : r = r' := by rw [hr] at hr'; exact Except.ok.inj hr'
  refine ⟨r, hr, ⟨g, hg⟩, fun g hg hrow => ?_⟩
  obtain ⟨hv, -, hc1⟩ := lattice_ok7 _ he h9
  have key := C108_profile hv hinv (fun i => hc1 i _) (by decide) (fun x _ y _ h => hrow x y h) (fun _ _ _ _ _ => rfl) hg 1 2
    (fun x _ _ => (C108_dirichlet he h9 od.weights hw inv hinv ⟨1, by decide⟩ 1 2 _ x).1.1)
    (fun x _ _ => (C108_dirichlet he h9 od.weights hw inv hinv ⟨1, by decide⟩ 1 2 _ x).1.2)
    1 (3 / 4) (by norm_num) (by norm_num) (by norm_num) (fun x _ => hC (g x))
  have m : ∀ t : ℤ, 0 ≤ t ∧ t < 3 → (fun _ => t : Vec (st.headD []).length) ∈
      (channel (fun d => if d.val = 0 then 4 else 3) ⟨1, by decide⟩).fluid := by
    intro t ht
    rw [mem_fluid]
    intro k
    refine ⟨ht.1, ?_⟩
    show t < ((if k.val = 0 then 4 else 3 : ℕ) : ℤ)
    split <;> norm_num <;> omega
  refine ⟨(key _ (m 0 (by decide))).1.trans ?_, (key _ (m 1 (by decide))).1.trans ?_, (key _ (m 2 (by decide))).1.trans ?_⟩ <;>
    (unfold planeCouette; norm_num)

end Example

end Poiseuille
end Lbm
