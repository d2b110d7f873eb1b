/-
C128: boundaries from images.
-/
import Verif.ImageMask
import Verif.Props.Geometry
import Mathlib.Tactic.FieldSimp
import Mathlib.Tactic.Linarith

namespace Lbm
namespace ImageMask

open Geometry

theorem pyRound_le {q : ℚ} {n : ℤ} (h : q ≤ n) : pyRound q ≤ n := by
  have h1 := (C73_round q).1
  have h2 := (C73_round q).2
  by_contra hc
  push Not at hc
  have hc' : ((n : ℚ) + 1) ≤ pyRound q := by exact_mod_cast hc
  rw [abs_le] at h1
  linarith [h1.1]

/-- C128. Without keeping the aspect ratio the image has exactly the size of the target. -/
theorem C128_exact (image target : Fin 2 → ℕ) (hi : ∀ i, 0 < image i) (i : Fin 2) : zoomedSize image target false i = target i := by
  have h : (image i : ℚ) ≠ 0 := by exact_mod_cast (hi i).ne'
  have : (image i : ℚ) * zoomFactor image target false i = ((target i : ℤ) : ℚ) := by
    rw [zoomFactor, if_neg (by decide), mul_div_cancel₀ _ h]
    norm_cast
  rw [zoomedSize, this, pyRound_int]

/-- C128. With the aspect ratio kept the image is not larger than the target, and fills it along one axis. -/
theorem C128_fits (image target : Fin 2 → ℕ) (hi : ∀ i, 0 < image i) :
    (∀ i, zoomedSize image target true i ≤ target i) ∧ ∃ i, zoomedSize image target true i = target i := by
  have h : ∀ i, (0 : ℚ) < image i := fun i => by exact_mod_cast hi i
  have hz : ∀ i, zoomFactor image target true i = min ((target 0 : ℚ) / image 0) ((target 1 : ℚ) / image 1) := fun i => if_pos rfl
  have hle : ∀ i, zoomFactor image target true i ≤ (target i : ℚ) / image i := by
    intro i
    rw [hz]
    match i with
    | 0 => exact min_le_left _ _
    | 1 => exact min_le_right _ _
  constructor
  · intro i
    refine pyRound_le ?_
    have := mul_le_mul_of_nonneg_left (hle i) (h i).le
    rw [mul_div_cancel₀ _ (h i).ne'] at this
    exact_mod_cast this
  · rcases min_choice ((target 0 : ℚ) / image 0) ((target 1 : ℚ) / image 1) with hm | hm
    · refine ⟨0, ?_⟩
      have : (image 0 : ℚ) * zoomFactor image target true 0 = ((target 0 : ℤ) : ℚ) := by
        rw [hz, hm, mul_div_cancel₀ _ (h 0).ne']; norm_cast
      rw [zoomedSize, this, pyRound_int]
    · refine ⟨1, ?_⟩
      have : (image 1 : ℚ) * zoomFactor image target true 1 = ((target 1 : ℤ) : ℚ) := by
        rw [hz, hm, mul_div_cancel₀ _ (h 1).ne']; norm_cast
      rw [zoomedSize, this, pyRound_int]

/-- C128. So the image can always be put into the target; it is centred up to one cell, and around it nothing is set. -/
theorem C128_centred (image target : Fin 2 → ℕ) (hi : ∀ i, 0 < image i) (keep : Bool) (black : ℤ → ℤ → Bool) :
    ∃ r, resized (fun i => target i) (zoomedSize image target keep) black = .ok r ∧
      ∃ left : Fin 2 → ℤ, (∀ i, 0 ≤ left i ∧ left i ≤ target i - zoomedSize image target keep i - left i ∧
          target i - zoomedSize image target keep i - left i ≤ left i + 1) ∧
        (∀ x y, 0 ≤ x → x < zoomedSize image target keep 0 → 0 ≤ y → y < zoomedSize image target keep 1 →
          r (left 0 + x) (left 1 + y) = black x y) ∧
        ∀ x y, r x y = true → (left 0 ≤ x ∧ x < left 0 + zoomedSize image target keep 0) ∧
          (left 1 ≤ y ∧ y < left 1 + zoomedSize image target keep 1) := by
  have hle : ∀ i, zoomedSize image target keep i ≤ target i := by
    cases keep with
    | true => exact (C128_fits image target hi).1
    | false => exact fun i => (C128_exact image target hi i).le
  generalize zoomedSize image target keep = s at hle
  unfold resized
  rw [if_pos ⟨hle 0, hle 1⟩]
  refine ⟨_, rfl, fun i => ((target i : ℤ) - s i) / 2, fun i => ?_, ?_, ?_⟩
  · have := hle i
    dsimp only
    omega
  · intro x y h1 h2 h3 h4
    dsimp only
    rw [if_pos ⟨⟨by omega, by omega⟩, by omega, by omega⟩]
    congr 1 <;> omega
  · intro x y h
    dsimp only at h ⊢
    split_ifs at h with hc
    obtain ⟨⟨a, b⟩, c, d⟩ := hc
    exact ⟨⟨a, by omega⟩, c, by omega⟩

variable {D : ℕ}

/-- C128. A cell `x` of the region of the image gets the pixel at its place in the region, in every block that contains the cell. -/
theorem C128_callback (block image : Fin D → Slice) (plane : Fin D × Fin D) (zoomed : ℤ → ℤ → Bool) (x : Fin D → ℤ)
    (hb : ∀ i, (block i).1 ≤ x i ∧ x i < (block i).2) (hi : ∀ i, (image i).1 ≤ x i ∧ x i < (image i).2) :
    callback block image plane zoomed (fun i => x i - (block i).1) =
      zoomed (x (min plane.1 plane.2) - (image (min plane.1 plane.2)).1) (x (max plane.1 plane.2) - (image (max plane.1 plane.2)).1) := by
  have hm : ∀ i, max (block i).1 (image i).1 ≤ x i ∧ x i < min (block i).2 (image i).2 := fun i =>
    ⟨max_le (hb i).1 (hi i).1, lt_min (hb i).2 (hi i).2⟩
  unfold callback meet
  rw [if_neg]
  · dsimp only
    rw [if_pos]
    · congr 1 <;> omega
    · exact ⟨⟨by have := (hm plane.1).1; omega, by have := (hm plane.1).2; omega⟩,
        by have := (hm plane.2).1; omega, by have := (hm plane.2).2; omega⟩
  · rintro ⟨i, h⟩
    have := hm i
    dsimp only at h
    omega

/-- C128. So the boundary does not depend on how the domain is divided into blocks. -/
theorem C128_blocks (block block' image : Fin D → Slice) (plane : Fin D × Fin D) (zoomed : ℤ → ℤ → Bool) (x : Fin D → ℤ)
    (hb : ∀ i, (block i).1 ≤ x i ∧ x i < (block i).2) (hb' : ∀ i, (block' i).1 ≤ x i ∧ x i < (block' i).2)
    (hi : ∀ i, (image i).1 ≤ x i ∧ x i < (image i).2) :
    callback block image plane zoomed (fun i => x i - (block i).1) = callback block' image plane zoomed (fun i => x i - (block' i).1) := by
  rw [C128_callback block image plane zoomed x hb hi, C128_callback block' image plane zoomed x hb' hi]

/-- C128. Outside the region along one of the two axes nothing is set. -/
theorem C128_outside (block image : Fin D → Slice) (plane : Fin D × Fin D) (zoomed : ℤ → ℤ → Bool) (x : Fin D → ℤ)
    (h : ¬ ((image plane.1).1 ≤ x plane.1 ∧ x plane.1 < (image plane.1).2) ∨ ¬ ((image plane.2).1 ≤ x plane.2 ∧ x plane.2 < (image plane.2).2)) :
    callback block image plane zoomed (fun i => x i - (block i).1) = false := by
  unfold callback meet
  split_ifs with h1
  · rfl
  · dsimp only
    refine if_neg ?_
    rintro ⟨⟨h2, h3⟩, h4, h5⟩
    rcases h with h | h <;> omega

/-- C128. The order of the two axes is ignored: the image is not transposed for the plane `(1, 0)` (in a region that is
not square the assignment then fails in numpy, which is not modelled). -/
theorem C128_plane_order (block image : Fin D → Slice) (a b : Fin D) (zoomed : ℤ → ℤ → Bool) (l : Fin D → ℤ) :
    callback block image (a, b) zoomed l = callback block image (b, a) zoomed l := by
  unfold callback
  simp only [min_comm a b, max_comm a b, and_comm]

/-- Concrete case: an image of 3 × 4 pixels in a region of 10 × 10 cells becomes 8 × 10; a cell in the second of two blocks. -/
example : (fun i => zoomedSize ![3, 4] ![10, 10] true i) = ![8, 10] ∧
    callback ![(5, 10), (0, 10)] ![(2, 9), (1, 8)] (0, 1) (fun x y => x == 4 && y == 2) ![1, 3] = true := by
  constructor <;> decide +kernel

end ImageMask
end Lbm
