/-
C97: cases in which the two transforms between populations and raw moments differ.
-/
import Verif.Props.RawTransforms
import Mathlib.Tactic.Linarith
import Mathlib.Tactic.FinCases

set_option linter.unusedSectionVars false

namespace Lbm

open Matrix CentralMoments

namespace RawTransforms

open Chimera CentralTransforms

namespace Witness

/-- the directions of D3Q7 -/
def st : List (List ℤ) := [[0, 0, 0], [1, 0, 0], [-1, 0, 0], [0, 1, 0], [0, -1, 0], [0, 0, 1], [0, 0, -1]]

/-- `1, x, y, z, x² + p, y², z²` -/
def polys (p : MPoly ℤ) : Fin st.length → MPoly ℤ := fun i =>
  ([[(1, [0, 0, 0])], [(1, [1, 0, 0])], [(1, [0, 1, 0])], [(1, [0, 0, 1])], (1, [2, 0, 0]) :: p, [(1, [0, 2, 0])], [(1, [0, 0, 2])]] :
    List (MPoly ℤ)).getD i []

theorem firstNeighbours : Spec.FirstNeighbours 3 st := by unfold Spec.FirstNeighbours; decide

theorem good (p : MPoly ℤ) (h : p = [(1, [1, 1, 0])] ∨ p = [(1, [6, 0, 0])]) : Spec.Polynomials 3 (polys p) := by
  rcases h with rfl | rfl <;> · unfold Spec.Polynomials; decide

theorem determined (p : MPoly ℤ) (h : p = [(1, [1, 1, 0])] ∨ p = [(1, [6, 0, 0])]) : Spec.Determined ℚ 3 st (polys p) := by
  intro f hf
  have h0 := hf (0 : Fin 7)
  have h1 := hf (1 : Fin 7)
  have h2 := hf (2 : Fin 7)
  have h3 := hf (3 : Fin 7)
  have h4 := hf (4 : Fin 7)
  have h5 := hf (5 : Fin 7)
  have h6 := hf (6 : Fin 7)
  clear hf
  change Fin 7 → ℚ at f
  have e : ∀ g : Fin st.length → ℚ, ∑ q, g q = g (0 : Fin 7) + g (1 : Fin 7) + g (2 : Fin 7) + g (3 : Fin 7) + g (4 : Fin 7) +
      g (5 : Fin 7) + g (6 : Fin 7) := fun g => Fin.sum_univ_seven (M := ℚ) g
  unfold Spec.rawMoments at h0 h1 h2 h3 h4 h5 h6
  rw [e] at h0 h1 h2 h3 h4 h5 h6
  rcases h with rfl | rfl <;>
  · simp [polys, st, Spec.polyEval, Spec.monomial] at h0 h1 h2 h3 h4 h5 h6
    have key : f 0 = 0 ∧ f 1 = 0 ∧ f 2 = 0 ∧ f 3 = 0 ∧ f 4 = 0 ∧ f 5 = 0 ∧ f 6 = 0 := by
      refine ⟨?_, ?_, ?_, ?_, ?_, ?_, ?_⟩ <;> linarith
    obtain ⟨a0, a1, a2, a3, a4, a5, a6⟩ := key
    funext q
    change f q = 0
    change Fin 7 at q
    fin_cases q
    · exact a0
    · exact a1
    · exact a2
    · exact a3
    · exact a4
    · exact a5
    · exact a6

/-- **C97, negative part** With `x² + x y` the matrix transform of D3Q7 exists, while the chimera transform does not: eight monomials
remain, since `x y` vanishes on the stencil without being the alias of another monomial. -/
theorem C97_too_many_monomials (raw : List ℕ → ℚ) :
    (∃ t, matrix 3 st (polys [(1, [1, 1, 0])]) raw = .ok t) ∧ chimera 3 st (polys [(1, [1, 1, 0])]) raw = .error .valueError := by
  refine ⟨C97_matrix.1.2 (determined _ (Or.inl rfl)), ?_⟩
  unfold chimera
  exact if_pos (by decide +kernel)

/-- raw moments of the continuous Maxwellian at rest: of `x⁶` the moment 5/9, of `x²` the moment 1/3 -/
def maxwellian : List ℕ → ℚ
  | [0, 0, 0] => 1
  | [2, 0, 0] | [0, 2, 0] | [0, 0, 2] => 1 / 3
  | [6, 0, 0] => 5 / 9
  | _ => 0

/-- **C97, negative part** With `x² + x⁶` both transforms of D3Q7 exist and differ: the matrix transform adds the background moment
8/9 of the given polynomial, the chimera transform that of `2 x²`. -/
theorem C97_background_differs : ∃ t t', chimera 3 st (polys [(1, [6, 0, 0])]) maxwellian = .ok t ∧
    matrix 3 st (polys [(1, [6, 0, 0])]) maxwellian = .ok t' ∧ t.forward 0 (4 : Fin 7) = 2 / 3 ∧ t'.forward 0 (4 : Fin 7) = 8 / 9 := by
  have hd := determined _ (Or.inr rfl)
  obtain ⟨t', ht'⟩ := (C97_matrix (raw := maxwellian)).1.2 hd
  obtain ⟨t, ht⟩ := (C97_chimera_exists (raw := maxwellian) firstNeighbours (good _ (Or.inr rfl))).2 ⟨hd, by decide +kernel⟩
  refine ⟨t, t', ht, ht', ?_, ?_⟩
  · refine ((C97_chimera (by norm_num) firstNeighbours (good _ (Or.inr rfl)) ht).2.1 0 (4 : Fin 7)).trans ?_
    have hr : (reduced st (List.ofFn (polys [(1, [6, 0, 0])]))).getD (4 : Fin 7) [] = [(2, [2, 0, 0])] := by decide +kernel
    refine (congrArg (fun p => _ + backgroundMoment maxwellian p) hr).trans ?_
    simp [Spec.rawMoments, backgroundMoment, maxwellian]
    norm_num
  · refine (congrFun (((C97_matrix (raw := maxwellian)).2 t' ht').1 0) (4 : Fin 7)).trans ?_
    unfold Spec.rawMoments
    simp [polys, maxwellian]
    norm_num

end Witness

/-- the cascaded set of D3Q15 without background: the transform exists -/
example : ∃ (qs : Fin 15 → PExpr) (t : Transform ℚ 15),
    chimera (K := ℚ) 3 Tables.D3Q15_walberla (polysOf 3 qs) (fun _ => 0) = .ok t ∧ (monomials (polysOf 3 qs)).length = 23 ∧
    Computes (st := Tables.D3Q15_walberla) 3 (polysOf 3 qs) (fun _ => (0 : ℚ)) t := by
  have he : ("D3Q15", "walberla", Tables.D3Q15_walberla) ∈ Tables.predefined := by decide +kernel
  obtain ⟨g, hg, hl, hm⟩ : ∃ g, cascadedMomentSets Tables.D3Q15_walberla = some g ∧ g.flatten.length = 15 ∧
    (monomials (polysOf 3 fun i : Fin 15 => g.flatten.getD i 0)).length = 23 :=
    ⟨_, rfl, by decide +kernel, by decide +kernel⟩
  have hperm : List.ofFn (fun i : Fin 15 => g.flatten.getD i 0) = g.flatten := by
    refine List.ext_getElem (by rw [List.length_ofFn, hl]) fun n h1 h2 => ?_
    rw [List.getElem_ofFn, List.getD_eq_getElem _ _ h2]
  obtain ⟨t, t', h1, -, h3, -⟩ := C97_offered_sets (K := ℚ) _ he g.flatten (Or.inr ⟨g, hg, rfl⟩)
    (fun i => g.flatten.getD i 0) (List.Perm.of_eq hperm) (fun _ => 0) ⟨fun _ _ _ => rfl, fun _ _ => rfl⟩
  exact ⟨fun i => g.flatten.getD i 0, t, h1, hm, h3⟩

end RawTransforms
end Lbm
