import Verif.Derivatives
import Mathlib.Algebra.BigOperators.Fin
import Mathlib.Data.Fintype.Pi
import Mathlib.Data.Rat.Defs

/-!
# Moments of the difference weights, for property C93
-/

namespace Lbm
namespace Derivatives

/-- The moment of weights -/
def moment (st : List (List ℤ)) (w : List ℤ → ℚ) {D : ℕ} (m : Fin D → ℕ) : ℚ := (st.map fun l => w l * ∏ a : Fin D, (l.getD a 0 : ℚ) ^ m a).sum

/-! ## The moments of the weights -/

/-- The weights of the Laplacian -/
def laplaceWeight (t : ℕ → ℕ → ℚ) (D : ℕ) (l : List ℤ) : ℚ := ∑ i : Fin D, secondWeight t i l

theorem laplace_moments : ∀ e ∈ Tables.predefined, ∀ t ∈ secondTable (e.2.2.headD []).length e.2.2.length, ∀ m : Fin (e.2.2.headD []).length → Fin 6,
    ∑ a, (m a).val ≤ 5 → moment e.2.2 (laplaceWeight t (e.2.2.headD []).length) (fun a => (m a).val) =
      (∑ i, if (fun a => (m a).val) = Pi.single i 2 then 2 else 0) + ∑ i, ∑ j, if (fun a => (m a).val) = Pi.single i 2 + Pi.single j 2 then
        (if i = j then 2 else if e.2.2.length = 15 then 11 / 18 else 1 / 3) else 0 := by
  decide +kernel

theorem first_moments : ∀ e ∈ Tables.predefined, 2 ≤ (e.2.2.headD []).length → ∀ t ∈ firstTable (e.2.2.headD []).length e.2.2.length,
    ∀ r ∈ [(0, id), (1, rotate01)] ++ (if (e.2.2.headD []).length = 3 then [(2, rotate12)] else []), ∀ m : Fin (e.2.2.headD []).length → Fin 5,
    ∑ a, (m a).val ≤ 4 → moment e.2.2 (fun l => firstWeight t (r.2 l)) (fun a => (m a).val) =
      ∑ k, if k.val = r.1 then (if (fun a => (m a).val) = Pi.single k 1 then 1 else 0) +
        ∑ i, (if (fun a => (m a).val) = Pi.single k 1 + Pi.single i 2 then (if i = k then 1 else 1 / 3) else 0) else 0 := by
  decide +kernel

end Derivatives
end Lbm
