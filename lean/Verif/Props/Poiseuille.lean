/-
C106, C107: steady flow between two plates.
-/
import Verif.Spec.Channel
import Verif.Props.LbSimulation
import Verif.Geometry
import Mathlib.Tactic.FieldSimp
import Mathlib.Tactic.LinearCombination

set_option linter.unusedSectionVars false

namespace Lbm
namespace Poiseuille

open Spec Simulation

/-! ### The recursion -/

section Recursion
variable {K : Type} [Field K] [CharZero K]

/-- Rows `0, …, n - 1`; `P`, `M` sum and difference of the momenta along the plates that move up and down,
`B`, `T` what the plates add. -/
theorem rows_solution (n : ℕ) (hn : 0 < n) (P M : ℕ → K) (ω F B T : K) (h0 : ω ≠ 0) (h2 : 2 - ω ≠ 0)
    (up : ∀ y, y + 1 < n → P (y + 1) + M (y + 1) = P y + F + (1 - ω) * M y)
    (down : ∀ y, y + 1 < n → P y - M y = P (y + 1) + F - (1 - ω) * M (y + 1))
    (bottom : P 0 + M 0 = -(P 0 + F - (1 - ω) * M 0) + B)
    (top : P (n - 1) - M (n - 1) = -(P (n - 1) + F + (1 - ω) * M (n - 1)) + T) (y : ℕ) (hy : y < n) :
    P y = ω / (2 - ω) * F * ((n : K) ^ 2 / 4 - ((y : K) - (n - 1) / 2) ^ 2) - ω / (2 - ω) * F / 4 - F / 2 +
      (B / 2 + (T - B) / 2 * ((y + 1 / 2) / n)) ∧
    M y = 2 * (F / (2 - ω)) * (y - (n - 1) / 2) - (T - B) / (2 * n * ω) := by
  obtain ⟨α, hα⟩ : ∃ α, α = F / (2 - ω) := ⟨_, rfl⟩
  have hαF : F = (2 - ω) * α := by rw [hα]; field_simp
  have hM : ∀ y, y < n → M y = M 0 + 2 * α * y := by
    intro y hy
    induction y with
    | zero => simp
    | succ y ih =>
      have e : (2 - ω) * (M (y + 1) - M y - 2 * α) = 0 := by
        have u := up y hy
        have d := down y hy
        rw [hαF] at u d
        linear_combination u + d
      have e2 := (mul_eq_zero.1 e).resolve_left h2
      push_cast
      linear_combination e2 + ih (by omega)
  have hP : ∀ y, y < n → P y = P 0 - ω * (y * M 0 + α * y ^ 2) := by
    intro y hy
    induction y with
    | zero => simp
    | succ y ih =>
      have u := up y hy
      rw [hM (y + 1) hy, hM y (by omega)] at u
      rw [hαF] at u
      push_cast at u ⊢
      linear_combination u + ih (by omega)
  have hc : ((n - 1 : ℕ) : K) = n - 1 := by rw [Nat.cast_sub hn, Nat.cast_one]
  have hn0 : (n : K) ≠ 0 := by exact_mod_cast hn.ne'
  have key : (n : K) * (ω * (M 0 + α * (n - 1) + (T - B) / (2 * n * ω))) = 0 := by
    rw [hP (n - 1) (by omega), hM (n - 1) (by omega), hc] at top
    field_simp
    linear_combination bottom - top
  have hM0 : M 0 = -α * (n - 1) - (T - B) / (2 * n * ω) := by
    have := ((mul_eq_zero.1 key).resolve_left hn0)
    linear_combination (mul_eq_zero.1 this).resolve_left h0
  refine ⟨?_, by rw [hM y hy, hM0, ← hα]; ring⟩
  obtain ⟨γ, hγ⟩ : ∃ γ, γ = (T - B) / (2 * n * ω) := ⟨_, rfl⟩
  have e4 : (T - B) / 2 * (((y : K) + 1 / 2) / n) = ω * γ * (y + 1 / 2) := by rw [hγ]; field_simp
  rw [e4, hP y hy]
  rw [hM0, ← hγ] at bottom ⊢
  have e : ω / (2 - ω) * F = ω * α := by rw [hα]; ring
  rw [e]
  rw [hαF] at bottom ⊢
  linear_combination (1 / 2) * bottom

end Recursion

/-! ### Rows of a steady flow -/

section Rows
variable {K : Type} [Field K] {D Q : ℕ} {c : Fin Q → Vec D} {b : Fin D}

/-- part of a moment that moves with velocity `s` normal to the plates -/
def part (c : Fin Q → Vec D) (b : Fin D) (s : ℤ) (φ : Vec D → ℤ) (f : Fin Q → K) : K :=
  ∑ i, if c i b = s then (φ (c i) : K) * f i else 0

theorem dirMoment_parts (hc : ∀ i, c i b = -1 ∨ c i b = 0 ∨ c i b = 1) (φ : Vec D → ℤ) (f : Fin Q → K) :
    dirMoment c φ f = part c b 0 φ f + part c b 1 φ f + part c b (-1) φ f := by
  unfold dirMoment part
  rw [← Finset.sum_add_distrib, ← Finset.sum_add_distrib]
  refine Finset.sum_congr rfl fun i _ => ?_
  rcases hc i with h | h | h <;> rw [h] <;> simp

theorem part_mul (s : ℤ) (φ ψ : Vec D → ℤ) (t : ℤ) (h : ∀ v : Vec D, v b = s → ψ v = t * φ v) (f : Fin Q → K) :
    part c b s ψ f = t * part c b s φ f := by
  unfold part
  rw [Finset.mul_sum]
  refine Finset.sum_congr rfl fun i _ => ?_
  split
  · rename_i hi
    rw [h _ hi]; push_cast; ring
  · simp

theorem part_opposite {inv : Fin Q → Fin Q} (hinj : Function.Injective c) (hinv : ∀ i, c (inv i) = -c i) (s t : ℤ)
    (φ : Vec D → ℤ) (u : ℤ) (hφ : ∀ v : Vec D, φ (-v) = u * φ v) (hst : t = -s) (f g : Fin Q → K)
    (h : ∀ i, c i b = s → f i = g (inv i)) : part c b s φ f = u * part c b t φ g := by
  have h2 : Function.Involutive inv := fun i => hinj (by rw [hinv, hinv, neg_neg])
  unfold part
  rw [Finset.mul_sum]
  refine Finset.sum_bijective inv h2.bijective (by simp) fun i _ => ?_
  have e : (c (inv i)) b = t ↔ c i b = s := by
    rw [hinv, Pi.neg_apply, hst]; exact neg_inj
  by_cases hs : c i b = s
  · rw [if_pos hs, if_pos (e.2 hs), h i hs, hinv, hφ]
    have : (u * u * φ (c i) : ℤ) = φ (c i) := by
      have := hφ (-c i)
      rw [neg_neg, hφ] at this
      rw [mul_assoc]; exact this.symm
    have k := congrArg (Int.cast (R := K)) this
    push_cast at k
    push_cast
    linear_combination (-(g (inv i))) * k
  · rw [if_neg hs, if_neg (fun h => hs (e.1 h)), mul_zero]

/-- a cell of row `y` -/
def rowCell (b : Fin D) (y : ℤ) : Vec D := fun k => if k = b then y else 0

variable {size : Fin D → ℕ} {inv : Fin Q → Fin Q} {W : Vec D → Fin Q → (Fin Q → K) → K} {C : (Fin Q → K) → Fin Q → K}
  {g : Vec D → Fin Q → K}

theorem mem_fluid {x : Vec D} : x ∈ (channel size b).fluid ↔ ∀ k, 0 ≤ x k ∧ x k < size k := by
  constructor
  · intro h; exact h.1
  · intro h
    refine ⟨h, fun hw => ?_⟩
    have := h b
    rcases hw with hw | hw <;> omega

theorem rowCell_mem (hs : ∀ k, 0 < size k) {y : ℤ} (h0 : 0 ≤ y) (h1 : y < size b) : rowCell b y ∈ (channel size b).fluid := by
  rw [mem_fluid]
  intro k
  unfold rowCell
  split
  · rename_i h; subst h; exact ⟨h0, h1⟩
  · exact ⟨le_rfl, by have := hs k; omega⟩

section Of
variable {C : Vec D → (Fin Q → K) → Fin Q → K}

/-- streaming between rows -/
theorem row_stream_of (hs : ∀ k, 0 < size k)
    (hg : ∀ x ∈ (channel size b).fluid, ∀ y ∈ (channel size b).fluid, x b = y b → g x = g y)
    (steady : ∀ x ∈ (channel size b).fluid,
      (channel size b).collideStream c W C g x = g x)
    (hCr : ∀ x ∈ (channel size b).fluid, ∀ y ∈ (channel size b).fluid, x b = y b → C x = C y)
    (y : ℤ) (h0 : 0 ≤ y) (h1 : y < size b) (i : Fin Q) :
    g (rowCell b y) i = if y - c i b < 0 ∨ size b ≤ y - c i b then W (rowCell b y) i (C (rowCell b y) (g (rowCell b y)))
      else C (rowCell b (y - c i b)) (g (rowCell b (y - c i b))) i := by
  have hm := rowCell_mem (b := b) hs h0 h1
  have e : (rowCell b y - c i) b = y - c i b := by simp [rowCell]
  have key := congrFun (steady _ hm) i
  unfold Domain.collideStream Domain.stream at key
  rw [← key]
  have hw : (channel size b).wall (rowCell b y - c i) ↔ (y - c i b < 0 ∨ size b ≤ y - c i b) := by
    show ((rowCell b y - c i) b < 0 ∨ (size b : ℤ) ≤ (rowCell b y - c i) b) ↔ _
    rw [e]
  by_cases h : y - c i b < 0 ∨ size b ≤ y - c i b
  · rw [if_pos (hw.2 h), if_pos h]
  · rw [if_neg (fun a => h (hw.1 a)), if_neg h]
    have hx : (channel size b).image (rowCell b y - c i) ∈ (channel size b).fluid := by
      rw [mem_fluid]
      intro k
      by_cases hk : k = b
      · subst hk
        have : (channel size k).image (rowCell k y - c i) k = y - c i k := by simp [Domain.image, channel, rowCell]
        rw [this]; push Not at h; exact ⟨h.1, h.2⟩
      · have : (channel size b).image (rowCell b y - c i) k = (rowCell b y - c i) k % (size k) := by
          simp [Domain.image, channel, hk]
        rw [this]
        have := hs k
        exact ⟨Int.emod_nonneg _ (by omega), Int.emod_lt_of_pos _ (by omega)⟩
    push Not at h
    show C ((channel size b).image (rowCell b y - c i)) (g ((channel size b).image (rowCell b y - c i))) i = _
    have hrow : (channel size b).image (rowCell b y - c i) b = rowCell b (y - c i b) b := by simp [Domain.image, channel, rowCell]
    rw [hg _ hx _ (rowCell_mem hs h.1 h.2) hrow, hCr _ hx _ (rowCell_mem hs h.1 h.2) hrow]

end Of

/-- streaming between rows -/
theorem row_stream (hs : ∀ k, 0 < size k)
    (hg : ∀ x ∈ (channel size b).fluid, ∀ y ∈ (channel size b).fluid, x b = y b → g x = g y)
    (steady : ∀ x ∈ (channel size b).fluid,
      (channel size b).collideStream c W (fun _ => C) g x = g x)
    (y : ℤ) (h0 : 0 ≤ y) (h1 : y < size b) (i : Fin Q) :
    g (rowCell b y) i = if y - c i b < 0 ∨ size b ≤ y - c i b then W (rowCell b y) i (C (g (rowCell b y)))
      else C (g (rowCell b (y - c i b))) i :=
  row_stream_of (C := fun _ => C) hs hg steady (fun _ _ _ _ _ => rfl) y h0 h1 i

end Rows

/-! ### The profile -/

section Profile
variable {K : Type} [Field K] [CharZero K] {D Q : ℕ} {c : Fin Q → Vec D} {a b : Fin D} {size : Fin D → ℕ} {inv : Fin Q → Fin Q}
  {W : Vec D → Fin Q → (Fin Q → K) → K} {C : (Fin Q → K) → Fin Q → K} {g : Vec D → Fin Q → K}

/-- C107. A steady flow between plates with momentum `j₀`, `j₁` that is the same in all cells of a row has no momentum normal to the
plates, and its momentum is the linear profile between the momenta of the plates, half a cell outside of the outermost cells, plus
the parabola and the slip of the force. -/
theorem C107_profile (hinj : Function.Injective c) (hinv : ∀ i, c (inv i) = -c i)
    (hc : ∀ i, c i b = -1 ∨ c i b = 0 ∨ c i b = 1) (hs : ∀ k, 0 < size k)
    (hg : ∀ x ∈ (channel size b).fluid, ∀ y ∈ (channel size b).fluid, x b = y b → g x = g y)
    (steady : ∀ x ∈ (channel size b).fluid, (channel size b).collideStream c W (fun _ => C) g x = g x)
    (j₀ j₁ : K) (hW0 : ∀ x ∈ (channel size b).fluid, x b = 0 → PlateWall c a b 1 inv j₀ (W x) (C (g x)))
    (hW1 : ∀ x ∈ (channel size b).fluid, x b + 1 = size b → PlateWall c a b (-1) inv j₁ (W x) (C (g x)))
    (ωs ωq F : K) (h0 : ωs ≠ 0) (h2 : ωs ≠ 2) (hq : ωq ≠ 0)
    (hC : ∀ x ∈ (channel size b).fluid, PlateCollision c a b ωs ωq F C (g x)) :
    ∀ x ∈ (channel size b).fluid, dirMoment c (fun v => v b) (g x) = 0 ∧
      dirMoment c (fun v => v a) (g x) + F / 2 =
        planePoiseuille F ((1 / ωs - 1 / 2) / 3) (size b) (x b - (size b - 1) / 2) +
          2 * F / (3 * ((1 / ωs - 1 / 2) / 3)) * ((1 / ωs - 1 / 2) * (1 / ωq - 1 / 2) - 3 / 16) +
        planeCouette j₀ j₁ (size b) (x b + 1 / 2) := by
  have rs := row_stream hs hg steady
  obtain ⟨n, hn⟩ : ∃ n, n = size b := ⟨_, rfl⟩
  have hn0 : 0 < n := hn ▸ hs b
  have hcg : ∀ y : ℕ, y < n → PlateCollision c a b ωs ωq F C (g (rowCell b y)) := fun y hy =>
    hC _ (rowCell_mem hs (by omega) (by omega))
  -- streaming of the parts
  have s0 : ∀ (φ : Vec D → ℤ) (y : ℕ), y < n → part c b 0 φ (g (rowCell b y)) = part c b 0 φ (C (g (rowCell b y))) := by
    intro φ y hy
    refine Finset.sum_congr rfl fun i _ => ?_
    split
    · rename_i hi
      have := rs y (by omega) (by omega) i
      rw [hi, sub_zero, if_neg (by omega)] at this
      rw [this]
    · rfl
  have s1 : ∀ (φ : Vec D → ℤ) (y : ℕ), y + 1 < n →
      part c b 1 φ (g (rowCell b (y + 1 : ℕ))) = part c b 1 φ (C (g (rowCell b y))) := by
    intro φ y hy
    refine Finset.sum_congr rfl fun i _ => ?_
    split
    · rename_i hi
      have := rs (y + 1 : ℕ) (by omega) (by omega) i
      rw [hi, if_neg (by omega), show ((y + 1 : ℕ) : ℤ) - 1 = y by omega] at this
      rw [this]
    · rfl
  have s2 : ∀ (φ : Vec D → ℤ) (y : ℕ), y + 1 < n →
      part c b (-1) φ (g (rowCell b y)) = part c b (-1) φ (C (g (rowCell b (y + 1 : ℕ)))) := by
    intro φ y hy
    refine Finset.sum_congr rfl fun i _ => ?_
    split
    · rename_i hi
      have := rs y (by omega) (by omega) i
      rw [hi, if_neg (by omega), show (y : ℤ) - -1 = (y + 1 : ℕ) by omega] at this
      rw [this]
    · rfl
  have psub : ∀ (s : ℤ) (φ : Vec D → ℤ) (f f' : Fin Q → K),
      part c b s φ f = part c b s φ f' + part c b s φ (fun i => f i - f' i) := by
    intro s φ f f'
    unfold part
    rw [← Finset.sum_add_distrib]
    refine Finset.sum_congr rfl fun i _ => ?_
    split
    · ring
    · simp
  have w1 : ∀ (φ : Vec D → ℤ) (u : ℤ), (∀ v : Vec D, φ (-v) = u * φ v) →
      part c b 1 φ (g (rowCell b (0 : ℕ))) = u * part c b (-1) φ (C (g (rowCell b (0 : ℕ)))) +
        part c b 1 φ (fun i => W (rowCell b (0 : ℕ)) i (C (g (rowCell b (0 : ℕ)))) - C (g (rowCell b (0 : ℕ))) (inv i)) := by
    intro φ u hφ
    rw [← part_opposite hinj hinv 1 (-1) φ u hφ rfl (fun i => C (g (rowCell b (0 : ℕ))) (inv i)) _ fun i _ => rfl]
    rw [← psub 1 φ (fun i => W (rowCell b (0 : ℕ)) i (C (g (rowCell b (0 : ℕ))))) _]
    refine Finset.sum_congr rfl fun i _ => ?_
    split
    · rename_i hi
      have := rs (0 : ℕ) (by omega) (by omega) i
      rw [hi, if_pos (by omega)] at this
      rw [this]
    · rfl
  have w2 : ∀ (φ : Vec D → ℤ) (u : ℤ), (∀ v : Vec D, φ (-v) = u * φ v) →
      part c b (-1) φ (g (rowCell b (n - 1 : ℕ))) = u * part c b 1 φ (C (g (rowCell b (n - 1 : ℕ)))) +
        part c b (-1) φ (fun i => W (rowCell b (n - 1 : ℕ)) i (C (g (rowCell b (n - 1 : ℕ)))) - C (g (rowCell b (n - 1 : ℕ))) (inv i)) := by
    intro φ u hφ
    rw [← part_opposite hinj hinv (-1) 1 φ u hφ rfl (fun i => C (g (rowCell b (n - 1 : ℕ))) (inv i)) _ fun i _ => rfl]
    rw [← psub (-1) φ (fun i => W (rowCell b (n - 1 : ℕ)) i (C (g (rowCell b (n - 1 : ℕ))))) _]
    refine Finset.sum_congr rfl fun i _ => ?_
    split
    · rename_i hi
      have := rs (n - 1 : ℕ) (by omega) (by omega) i
      rw [hi, if_pos (by omega)] at this
      rw [this]
    · rfl
  have q0 := hW0 (rowCell b (0 : ℕ)) (rowCell_mem hs (by omega) (by omega)) (by simp [rowCell])
  have q1 := hW1 (rowCell b (n - 1 : ℕ)) (rowCell_mem hs (by omega) (by omega)) (by simp [rowCell]; omega)
  have q0m : part c b 1 (fun _ => 1) (fun i => W (rowCell b (0 : ℕ)) i (C (g (rowCell b (0 : ℕ)))) - C (g (rowCell b (0 : ℕ))) (inv i))
      = 0 := by
    refine Eq.trans (Finset.sum_congr rfl fun i _ => ?_) q0.mass
    simp
  have q0a : part c b 1 (fun v => v a) (fun i => W (rowCell b (0 : ℕ)) i (C (g (rowCell b (0 : ℕ)))) -
      C (g (rowCell b (0 : ℕ))) (inv i)) = j₀ / 3 := q0.along
  have q1a : part c b (-1) (fun v => v a) (fun i => W (rowCell b (n - 1 : ℕ)) i (C (g (rowCell b (n - 1 : ℕ)))) -
      C (g (rowCell b (n - 1 : ℕ))) (inv i)) = j₁ / 3 := q1.along
  -- moments in terms of the parts
  have dm := fun (φ : Vec D → ℤ) (f : Fin Q → K) => dirMoment_parts hc φ f
  have hone : ∀ f : Fin Q → K, ∑ i, f i = dirMoment c (fun _ => 1) f := fun f => by simp [dirMoment]
  have p0 : ∀ (s : ℤ) (f : Fin Q → K), part c b s (fun v => v b) f = s * part c b s (fun _ => 1) f := fun s f =>
    part_mul s _ _ s (fun v hv => by rw [hv, mul_one]) f
  have p1 : ∀ (s : ℤ) (f : Fin Q → K), part c b s (fun v => v a * v b) f = s * part c b s (fun v => v a) f := fun s f =>
    part_mul s _ _ s (fun v hv => by rw [hv, mul_comm]) f
  have p2 : ∀ (s : ℤ) (f : Fin Q → K), part c b s (fun v => 3 * (v a * v b ^ 2) - v a) f =
      ((3 * s ^ 2 - 1 : ℤ) : K) * part c b s (fun v => v a) f := fun s f =>
    part_mul s _ _ _ (fun v hv => by rw [hv]; ring) f
  -- no momentum normal to the plates
  have hU : ∀ y : ℕ, y < n → part c b 1 (fun _ => 1) (C (g (rowCell b y))) = part c b 1 (fun _ => 1) (g (rowCell b y)) ∧
      part c b (-1) (fun _ => 1) (C (g (rowCell b y))) = part c b (-1) (fun _ => 1) (g (rowCell b y)) := by
    intro y hy
    have hm := (hcg y hy).mass
    have hv := (hcg y hy).normal
    rw [hone, hone, dm, dm, ← s0 _ y hy] at hm
    rw [dm, dm] at hv
    simp only [p0] at hv
    push_cast at hv
    constructor
    · linear_combination (1 / 2) * hm + (1 / 2) * hv
    · linear_combination (1 / 2) * hm - (1 / 2) * hv
  have hN : ∀ y : ℕ, y < n → part c b 1 (fun _ => 1) (g (rowCell b y)) = part c b 1 (fun _ => 1) (g (rowCell b (0 : ℕ))) ∧
      part c b (-1) (fun _ => 1) (g (rowCell b y)) = part c b (-1) (fun _ => 1) (g (rowCell b (0 : ℕ))) := by
    intro y hy
    induction y with
    | zero => exact ⟨rfl, rfl⟩
    | succ y ih =>
      obtain ⟨i1, i2⟩ := ih (by omega)
      constructor
      · rw [s1 _ y hy, (hU y (by omega)).1, i1]
      · rw [← (hU (y + 1) hy).2, ← s2 _ y hy, i2]
  have hnorm : ∀ y : ℕ, y < n → dirMoment c (fun v => v b) (g (rowCell b y)) = 0 := by
    intro y hy
    rw [dm]
    simp only [p0]
    rw [(hN y hy).1, (hN y hy).2, w1 (fun _ => 1) 1 (fun _ => rfl), (hU 0 hn0).2, q0m]
    push_cast; ring
  -- rows
  have hrow : ∀ y : ℕ, y < n →
      part c b 1 (fun v => v a) (C (g (rowCell b y))) + part c b (-1) (fun v => v a) (C (g (rowCell b y))) =
        part c b 1 (fun v => v a) (g (rowCell b y)) + part c b (-1) (fun v => v a) (g (rowCell b y)) + F ∧
      part c b 1 (fun v => v a) (C (g (rowCell b y))) - part c b (-1) (fun v => v a) (C (g (rowCell b y))) =
        (1 - ωs) * (part c b 1 (fun v => v a) (g (rowCell b y)) - part c b (-1) (fun v => v a) (g (rowCell b y))) ∧
      part c b 0 (fun v => v a) (g (rowCell b y)) =
        2 * (part c b 1 (fun v => v a) (g (rowCell b y)) + part c b (-1) (fun v => v a) (g (rowCell b y))) + 2 * F / ωq := by
    intro y hy
    have ha := (hcg y hy).along
    have hsh := (hcg y hy).shear (hnorm y hy)
    have hf := (hcg y hy).flux (hnorm y hy)
    rw [dm, dm, ← s0 _ y hy] at ha
    rw [dm, dm] at hsh hf
    simp only [p1] at hsh
    simp only [p2] at hf
    rw [← s0 _ y hy] at hf
    push_cast at hsh hf
    refine ⟨by linear_combination ha, by linear_combination hsh, ?_⟩
    field_simp
    linear_combination 2 * ha - hf
  have podd : ∀ v : Vec D, (fun v : Vec D => v a) (-v) = -1 * (fun v : Vec D => v a) v := fun v => by simp
  have key := fun y hy => (rows_solution n hn0
    (fun y => part c b 1 (fun v => v a) (g (rowCell b y)) + part c b (-1) (fun v => v a) (g (rowCell b y)))
    (fun y => part c b 1 (fun v => v a) (g (rowCell b y)) - part c b (-1) (fun v => v a) (g (rowCell b y))) ωs F (2 * j₀ / 3) (2 * j₁ / 3) h0
    (sub_ne_zero.2 (Ne.symm h2))
    (fun y hy => by
      obtain ⟨r1, r2, -⟩ := hrow y (by omega)
      have := s1 (fun v => v a) y hy
      linear_combination 2 * this + r1 + r2)
    (fun y hy => by
      obtain ⟨r1, r2, -⟩ := hrow (y + 1) hy
      have := s2 (fun v => v a) y hy
      linear_combination 2 * this + r1 - r2)
    (by
      obtain ⟨r1, r2, -⟩ := hrow 0 hn0
      have := w1 (fun v => v a) (-1) podd
      rw [q0a] at this
      push_cast at this
      linear_combination 2 * this - r1 + r2)
    (by
      obtain ⟨r1, r2, -⟩ := hrow (n - 1) (by omega)
      have := w2 (fun v => v a) (-1) podd
      rw [q1a] at this
      push_cast at this
      linear_combination 2 * this - r1 - r2) y hy).1
  intro x hx
  have hxb := mem_fluid.1 hx b
  obtain ⟨y, hy⟩ : ∃ y : ℕ, x b = y := ⟨(x b).toNat, by omega⟩
  have hyn : y < n := by omega
  have ex : g x = g (rowCell b y) := hg x hx _ (rowCell_mem hs (by omega) (by omega)) (by simp [rowCell, hy])
  refine ⟨by rw [ex]; exact hnorm y hyn, ?_⟩
  rw [ex, dm, (hrow y hyn).2.2, hy, ← hn]
  have k := key y hyn
  have h22 : 2 - ωs ≠ 0 := sub_ne_zero.2 (Ne.symm h2)
  have e1 : 1 / ωs - 1 / 2 = (2 - ωs) / (2 * ωs) := by field_simp
  have e3 : 2 * F / ωq + F / 2 = 2 * F * (1 / ωq - 1 / 2) + 3 * (F / 2) := by ring
  rw [e1]
  unfold planePoiseuille planeCouette
  obtain ⟨P, hP⟩ : ∃ P, P = part c b 1 (fun v => v a) (g (rowCell b y)) + part c b (-1) (fun v => v a) (g (rowCell b y)) := ⟨_, rfl⟩
  rw [← hP] at k
  have goal3 : 3 * P + (2 * F / ωq + F / 2) = F / (2 * ((2 - ωs) / (2 * ωs) / 3)) * (((n : K) / 2) ^ 2 - ((y : ℤ) - (n - 1) / 2) ^ 2) +
      2 * F / (3 * ((2 - ωs) / (2 * ωs) / 3)) * ((2 - ωs) / (2 * ωs) * (1 / ωq - 1 / 2) - 3 / 16) +
      (j₀ + (j₁ - j₀) * (((y : ℤ) + 1 / 2) / n)) := by
    rw [e3, k]
    push_cast
    field_simp
    ring
  rw [← goal3, hP]
  ring

/-- C106. A steady flow between plates that is the same in all cells of a row has no momentum normal to the plates, and its
momentum is the parabola of the flow between plates half a cell outside of the outermost cells, plus a constant slip that depends on
the product of the relaxation times only through `Λ - 3/16`. -/
theorem C106_profile (hinj : Function.Injective c) (hinv : ∀ i, c (inv i) = -c i)
    (hc : ∀ i, c i b = -1 ∨ c i b = 0 ∨ c i b = 1) (hs : ∀ k, 0 < size k)
    (hg : ∀ x ∈ (channel size b).fluid, ∀ y ∈ (channel size b).fluid, x b = y b → g x = g y)
    (steady : ∀ x ∈ (channel size b).fluid,
      (channel size b).collideStream c (fun _ i f => f (inv i)) (fun _ => C) g x = g x)
    (ωs ωq F : K) (h0 : ωs ≠ 0) (h2 : ωs ≠ 2) (hq : ωq ≠ 0)
    (hC : ∀ x ∈ (channel size b).fluid, PlateCollision c a b ωs ωq F C (g x)) :
    ∀ x ∈ (channel size b).fluid, dirMoment c (fun v => v b) (g x) = 0 ∧
      dirMoment c (fun v => v a) (g x) + F / 2 =
        planePoiseuille F ((1 / ωs - 1 / 2) / 3) (size b) (x b - (size b - 1) / 2) +
          2 * F / (3 * ((1 / ωs - 1 / 2) / 3)) * ((1 / ωs - 1 / 2) * (1 / ωq - 1 / 2) - 3 / 16) := by
  intro x hx
  have rest : ∀ (s : ℤ) (f : Fin Q → K), PlateWall c a b s inv 0 (fun i f => f (inv i)) f := fun s f => ⟨by simp, by simp⟩
  obtain ⟨h1, h3⟩ := C107_profile hinj hinv hc hs hg steady 0 0 (fun x _ _ => rest 1 _) (fun x _ _ => rest (-1) _) ωs ωq F h0 h2 hq hC
    x hx
  refine ⟨h1, h3.trans ?_⟩
  simp [planeCouette]

end Profile

end Poiseuille
end Lbm
