/-
C130: drops between two phases.
-/
import Verif.DropSetup
import Mathlib.Data.Fintype.Basic
import Mathlib.Tactic.FinCases

namespace Lbm
namespace DropSetup

/-- only phase `p` is present -/
def pure {m : ℕ} (p : Fin m) : Fin m → ℤ := fun i => if i = p then 1 else 0

theorem pure3 : (![1, 0, 0] : Fin 3 → ℤ) = pure 0 ∧ (![0, 1, 0] : Fin 3 → ℤ) = pure 1 ∧ (![0, 0, 1] : Fin 3 → ℤ) = pure 2 := by
  refine ⟨?_, ?_, ?_⟩ <;> (funext i; fin_cases i <;> rfl)

theorem pure4 : (![1, 0, 0, 0] : Fin 4 → ℤ) = pure 0 ∧ (![0, 1, 0, 0] : Fin 4 → ℤ) = pure 1 ∧ (![0, 0, 1, 0] : Fin 4 → ℤ) = pure 2 ∧
    (![0, 0, 0, 1] : Fin 4 → ℤ) = pure 3 := by
  refine ⟨?_, ?_, ?_, ?_⟩ <;> (funext i; fin_cases i <;> rfl)

/-- C130. The liquid lens: in each cell of the domain exactly one phase, whatever was there before: the drop in its rectangle, else the first phase
in the upper half and the second in the lower half. -/
theorem C130_lens (nx ny x y : ℕ) (hx : x < nx) (hy : y < ny) (init : Fin 3 → ℤ) :
    run nx ny lens init x y =
      if (3 * nx / 10 ≤ x ∧ x < 7 * nx / 10) ∧ 3 * ny / 10 ≤ y ∧ y < 7 * ny / 10 then pure 2 else if ny / 2 ≤ y then pure 0 else pure 1 := by
  have h5 : 5 * ny / 10 = ny / 2 := by omega
  simp only [run, lens, List.foldl_cons, List.foldl_nil, inSlice, Option.map_none, Option.map_some, Option.getD_none, Option.getD_some, h5, hx, hy,
    pure3.1, pure3.2.1, pure3.2.2, Nat.zero_le, Bool.and_eq_true, decide_eq_true_eq]
  by_cases h : ny / 2 ≤ y
  · simp only [h, Nat.not_lt.mpr h, and_true, and_false, if_true, if_false]
  · simp only [h, Nat.not_le.mp h, and_true, and_false, if_true, if_false]

/-- C130. Two drops: likewise; the two rectangles have no cell in common, so the order of the calls does not matter for them. -/
theorem C130_two_drops (nx ny x y : ℕ) (hx : x < nx) (hy : y < ny) (init : Fin 4 → ℤ) :
    run nx ny twoDrops init x y =
      (if (2 * nx / 10 ≤ x ∧ x < 4 * nx / 10) ∧ 3 * ny / 10 ≤ y ∧ y < 7 * ny / 10 then pure 2
      else if (7 * nx / 10 ≤ x ∧ x < 8 * nx / 10) ∧ 3 * ny / 10 ≤ y ∧ y < 7 * ny / 10 then pure 3
      else if ny / 2 ≤ y then pure 0 else pure 1) := by
  have h5 : 5 * ny / 10 = ny / 2 := by omega
  simp only [run, twoDrops, List.foldl_cons, List.foldl_nil, inSlice, Option.map_none, Option.map_some, Option.getD_none, Option.getD_some, h5, hx,
    hy, pure4.1, pure4.2.1, pure4.2.2.1, pure4.2.2.2, Nat.zero_le, Bool.and_eq_true,
    decide_eq_true_eq]
  by_cases h2 : (2 * nx / 10 ≤ x ∧ x < 4 * nx / 10) ∧ 3 * ny / 10 ≤ y ∧ y < 7 * ny / 10
  · have h3 : ¬ ((7 * nx / 10 ≤ x ∧ x < 8 * nx / 10) ∧ 3 * ny / 10 ≤ y ∧ y < 7 * ny / 10) := by
      rintro ⟨⟨h3, _⟩, _⟩
      have := h2.1.2
      omega
    simp only [if_pos h2, if_neg h3]
  · by_cases h : ny / 2 ≤ y
    · simp only [h, Nat.not_lt.mpr h, if_neg h2, and_true, and_false, if_true, if_false]
    · simp only [h, Nat.not_le.mp h, if_neg h2, and_true, and_false, if_true, if_false]

/-- C130. The drop touches both phases (as the angles at its corners need) exactly in domains of 3 or at least 5 rows. -/
theorem C130_straddles (ny : ℕ) : (3 * ny / 10 < ny / 2 ∧ ny / 2 < 7 * ny / 10) ↔ ny = 3 ∨ 5 ≤ ny := by omega

/-- the phase at a cell of the lens, for any value before -/
def HasPhase (nx ny x y : ℕ) (p : Fin 3) : Prop := ∀ init, run nx ny lens init x y = pure p

/-- C130. So with enough cells the drop meets both phases: some column leads from the second phase through the drop to the first, with the
middle of the domain inside the drop. -/
theorem C130_lens_column (nx ny : ℕ) (hx : 2 ≤ nx) (hy : 5 ≤ ny) :
    ∃ x < nx, HasPhase nx ny x 0 1 ∧ HasPhase nx ny x (ny / 2 - 1) 2 ∧ HasPhase nx ny x (ny / 2) 2 ∧ HasPhase nx ny x (ny - 1) 0 := by
  have hd : 3 * nx / 10 < 7 * nx / 10 := by
    rcases (show nx = 2 ∨ 3 ≤ nx by omega) with rfl | h <;> omega
  have hs := (C130_straddles ny).2 (.inr hy)
  refine ⟨3 * nx / 10, by omega, ?_, ?_, ?_, ?_⟩ <;> intro init <;> rw [C130_lens _ _ _ _ (by omega) (by omega)]
  · rw [if_neg (by omega), if_neg (by omega)]
  · rw [if_pos (by omega)]
  · rw [if_pos (by omega)]
  · rw [if_neg (by omega), if_pos (by omega)]

/-- C130. The drop of the lens is centred up to one cell. -/
theorem C130_centred (n : ℕ) : 3 * n / 10 ≤ n - 7 * n / 10 ∧ n - 7 * n / 10 ≤ 3 * n / 10 + 1 := by omega

/-- C130. The two drops are not of the same size, as the picture in the docstring has it: the first is about twice as wide as the second. -/
theorem C130_widths (nx : ℕ) : (4 * nx / 10 - 2 * nx / 10) + 2 ≥ 2 * (8 * nx / 10 - 7 * nx / 10) ∧
    2 * (8 * nx / 10 - 7 * nx / 10) + 2 ≥ 4 * nx / 10 - 2 * nx / 10 ∧ (20 ≤ nx → 8 * nx / 10 - 7 * nx / 10 < 4 * nx / 10 - 2 * nx / 10) := by
  omega

/-- Concrete case: the default domain of the lens, below, in and above the drop. -/
example : HasPhase 200 120 100 20 1 ∧ HasPhase 200 120 100 60 2 ∧ HasPhase 200 120 20 100 0 := by
  refine ⟨?_, ?_, ?_⟩ <;> intro init <;> rw [C130_lens _ _ _ _ (by omega) (by omega)] <;> rfl

end DropSetup
end Lbm
