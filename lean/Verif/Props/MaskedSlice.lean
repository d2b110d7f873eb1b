/-
C127: masks of slices.
-/
import Verif.MaskedSlice
import Mathlib.Algebra.BigOperators.Group.List.Lemmas

namespace Lbm
namespace MaskedSlice

/-- Specification: component `k` of every cell has the mask of the cell. -/
def Follows (mask m : Arr) (components : ℕ) : Prop :=
  m.shape = mask.shape ++ [components] ∧
    ∀ cell < mask.shape.prod, ∀ k < components, m.data (cell * components + k) = mask.data cell

theorem maskedArray_ok (shape : List ℕ) (m : Arr) (h : m.shape.prod = shape.prod) (hone : shape.prod = 1 → ∀ f, f = 0 ∨ shape.prod ≤ f) :
    ∃ r, maskedArray shape m = .ok r ∧ r.shape = shape ∧ ∀ f < shape.prod, r.data f = m.data f := by
  unfold maskedArray
  split_ifs with h1 h2
  · exact ⟨m, rfl, h1, fun _ _ => rfl⟩
  · refine ⟨_, rfl, rfl, fun f hf => ?_⟩
    rw [h] at h2
    rcases hone h2 f with rfl | h'
    · rfl
    · omega
  · exact ⟨_, rfl, rfl, fun _ _ => rfl⟩

theorem follows_of_source (mask : Arr) (C : ℕ) (m : Arr) (hm : m.shape.prod = mask.shape.prod * C) (hd : ∀ f, m.data f = mask.data (f / C)) :
    ∃ r, maskedArray (mask.shape ++ [C]) m = .ok r ∧ Follows mask r C := by
  obtain ⟨r, h1, h2, h3⟩ := maskedArray_ok (mask.shape ++ [C]) m (by rw [hm, List.prod_append, List.prod_singleton])
    (fun h f => by rw [h]; omega)
  refine ⟨r, h1, h2, fun cell hcell k hk => ?_⟩
  rw [h3, hd]
  · congr 1
    rw [Nat.mul_comm, Nat.mul_add_div (by omega), Nat.div_eq_of_lt hk, Nat.add_zero]
  · rw [List.prod_append, List.prod_singleton]
    calc cell * C + k < cell * C + C := by omega
      _ = (cell + 1) * C := by rw [Nat.add_mul, Nat.one_mul]
      _ ≤ mask.shape.prod * C := Nat.mul_le_mul_right _ hcell

/-- C127. Slices with two axes: each component of a vector has the mask of its cell. -/
theorem C127_two_axes (nx ny C : ℕ) (data : ℕ → Bool) :
    ∃ r, sliceMask [nx, ny, C] ⟨[nx, ny], data⟩ = .ok r ∧ Follows ⟨[nx, ny], data⟩ r C := by
  have := follows_of_source ⟨[nx, ny], data⟩ C ⟨[nx, ny, 1 * C], fun f => data ((f / (1 * C * 1) * 1 + f / 1 % (1 * C) / C) * 1 + f % 1)⟩
    (by simp [Nat.mul_assoc]) (fun f => ?_)
  · exact this
  · show data _ = data _
    congr 1
    rcases Nat.eq_zero_or_pos C with rfl | hC
    · simp [Nat.mod_one]
    · simp only [Nat.one_mul, Nat.mul_one, Nat.div_one, Nat.mod_one, Nat.add_zero]
      rw [Nat.div_eq_of_lt (Nat.mod_lt f hC), Nat.add_zero]

/-- C127. Slices with three axes: the entries are repeated along the third axis instead of the one of the components, but reading the values in
the shape of the data puts them in the right place. -/
theorem C127_three_axes (nx ny nz C : ℕ) (data : ℕ → Bool) :
    ∃ r, sliceMask [nx, ny, nz, C] ⟨[nx, ny, nz], data⟩ = .ok r ∧ Follows ⟨[nx, ny, nz], data⟩ r C := by
  have := follows_of_source ⟨[nx, ny, nz], data⟩ C
    ⟨[nx, ny, nz * C, 1], fun f => data ((f / (nz * C * [1].prod) * nz + f / [1].prod % (nz * C) / C) * [1].prod + f % [1].prod)⟩
    (by simp [Nat.mul_assoc]) (fun f => ?_)
  · exact this
  · show data _ = data _
    congr 1
    simp only [List.prod_singleton, Nat.mul_one, Nat.div_one, Nat.mod_one, Nat.add_zero]
    rw [Nat.mul_comm nz C, Nat.mod_mul_right_div_self, ← Nat.div_div_eq_div_mul, Nat.div_add_mod']

/-- C127. Arrays without components are masked cell by cell. -/
theorem C127_scalar (mask : Arr) : sliceMask mask.shape mask = .ok mask := by
  unfold sliceMask maskedArray
  rw [if_neg (lt_irrefl _), if_pos rfl]

/-- C127. For a single axis there is no axis to repeat along: components along a line cannot be masked. -/
theorem C127_line_fails (n C : ℕ) (data : ℕ → Bool) : sliceMask [n, C] ⟨[n], data⟩ = .error .indexError := rfl

/-- C127. Arrays with more than one axis of components are rejected. -/
theorem C127_rejects (shape : List ℕ) (mask : Arr) (h : mask.shape.length + 1 < shape.length) : sliceMask shape mask = .error .assertion := by
  unfold sliceMask
  rw [if_pos (by omega), if_neg (by omega)]

/-- C127. The density of an order parameter (`density_data_index`) cannot be read without a slice, the default of `density_slice`; with one the index
is the last entry. -/
theorem C127_density (i : Option ℕ) (s : Option (List ℕ)) :
    (densitySlice i s = .error .typeError ↔ i.isSome ∧ s = none) ∧ (∀ k l, densitySlice (some k) (some l) = .ok (some (l ++ [k]))) ∧
      densitySlice none s = .ok s := by
  refine ⟨?_, fun _ _ => rfl, rfl⟩
  cases i <;> cases s <;> simp [densitySlice]

/-- Concrete case: a mask of 1 × 2 × 2 cells with two components. -/
example : ∃ r, sliceMask [1, 2, 2, 2] ⟨[1, 2, 2], fun f => f % 3 == 0⟩ = .ok r ∧
    (List.range 8).map r.data = [true, true, false, false, false, false, true, true] := ⟨_, rfl, by decide +kernel⟩

end MaskedSlice
end Lbm
