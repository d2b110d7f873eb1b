import Mathlib.Analysis.Calculus.Deriv.Mul
import Verif.OldroydB
import Mathlib.Algebra.Polynomial.Eval.Degree
import Mathlib.Data.ZMod.Basic
import Mathlib.Algebra.BigOperators.Field
import Mathlib.Tactic.ComputeDegree
import Mathlib.Tactic.FinCases
import Mathlib.Tactic.LinearCombination
import Mathlib.Tactic.NoncommRing

/-!
# C72: the Oldroyd-B model

The source term is compared with what is known of the Oldroyd-B fluid: it does not depend on the observer
(frame indifference) and has the stresses of steady shear flow.  The force is compared with the divergence of
the stress, the extrapolation with the value of a polynomial at the face.
-/

namespace Lbm
namespace OldroydB

open Matrix

variable {D : ℕ}

namespace Spec

/-- The sum over the directions of `d_i d_k / |d|` is a multiple of the identity. -/
def Isotropic (half : List (Vec D)) (κ : ℝ) : Prop :=
  ∀ i k, (half.map fun d => (d i : ℝ) * (d k : ℝ) / norm d).sum = if i = k then κ else 0

/-- A stress field whose components are polynomials of degree at most two. -/
def quadratic (a : Fin D → Fin D → ℝ) (b : Fin D → Fin D → Fin D → ℝ)
    (c : Fin D → Fin D → Fin D → Fin D → ℝ) (x : Vec D) : Matrix (Fin D) (Fin D) ℝ :=
  fun i j => a i j + ∑ k, b i j k * (x k : ℝ) + ∑ k, ∑ l, c i j k l * (x k : ℝ) * (x l : ℝ)

/-- The derivative of `quadratic` in direction `k`. -/
def quadraticDiff (b : Fin D → Fin D → Fin D → ℝ) (c : Fin D → Fin D → Fin D → Fin D → ℝ) (x : Vec D)
    (i j k : Fin D) : ℝ :=
  b i j k + ∑ l, (c i j k l + c i j l k) * (x l : ℝ)

/-- The divergence of `quadratic`. -/
def quadraticDiv (b : Fin D → Fin D → Fin D → ℝ) (c : Fin D → Fin D → Fin D → Fin D → ℝ) (x : Vec D)
    (j : Fin D) : ℝ := ∑ i, quadraticDiff b c x i j i

end Spec

/-! ### The source term -/

/-- **C72 (symmetry).** A symmetric stress stays symmetric: its source is symmetric. -/
theorem C72_source_symmetric (lambdaP etaP : ℝ) (G τ : Matrix (Fin D) (Fin D) ℝ) (hτ : τᵀ = τ) :
    (source lambdaP etaP G τ)ᵀ = source lambdaP etaP G τ := by
  simp only [source, transpose_add, transpose_mul, transpose_transpose, hτ, transpose_smul,
    transpose_sub]
  rw [add_comm (Gᵀ * τ), add_comm Gᵀ G]

/-- **C72 (frame indifference).** Seen by an observer turned by the rotation `Q` and turning with the angular
velocity `A`, the velocity gradient is `Q G Qᵀ - A` and the stress `Q τ Qᵀ`; the source computed from these
is the rate of change of `Q τ Qᵀ` when `τ` changes with the source computed from `G` and `τ`. -/
theorem C72_source_objective (lambdaP etaP : ℝ) (G τ Q A : Matrix (Fin D) (Fin D) ℝ)
    (hQ : Qᵀ * Q = 1) (hA : Aᵀ = -A) :
    source lambdaP etaP (Q * G * Qᵀ - A) (Q * τ * Qᵀ) =
      A * (Q * τ * Qᵀ) - (Q * τ * Qᵀ) * A + Q * source lambdaP etaP G τ * Qᵀ := by
  have h1 : Q * τ * Qᵀ * (Q * G * Qᵀ) = Q * (τ * G) * Qᵀ := by
    calc Q * τ * Qᵀ * (Q * G * Qᵀ) = Q * τ * (Qᵀ * Q) * G * Qᵀ := by noncomm_ring
      _ = Q * (τ * G) * Qᵀ := by rw [hQ]; noncomm_ring
  have h2 : Q * Gᵀ * Qᵀ * (Q * τ * Qᵀ) = Q * (Gᵀ * τ) * Qᵀ := by
    calc Q * Gᵀ * Qᵀ * (Q * τ * Qᵀ) = Q * Gᵀ * (Qᵀ * Q) * τ * Qᵀ := by noncomm_ring
      _ = Q * (Gᵀ * τ) * Qᵀ := by rw [hQ]; noncomm_ring
  have ht : (Q * G * Qᵀ - A)ᵀ = Q * Gᵀ * Qᵀ + A := by
    rw [transpose_sub, hA, transpose_mul, transpose_mul, transpose_transpose, sub_neg_eq_add,
      Matrix.mul_assoc]
  simp only [source]
  rw [ht]
  have hg : Q * G * Qᵀ - A + (Q * Gᵀ * Qᵀ + A) = Q * (G + Gᵀ) * Qᵀ := by noncomm_ring
  rw [hg]
  have hr : (1 / lambdaP) • (etaP • (Q * (G + Gᵀ) * Qᵀ) - Q * τ * Qᵀ) =
      Q * ((1 / lambdaP) • (etaP • (G + Gᵀ) - τ)) * Qᵀ := by
    simp only [Matrix.mul_smul, Matrix.smul_mul, Matrix.mul_sub, Matrix.sub_mul]
  rw [hr, Matrix.mul_sub, Matrix.add_mul, h1, h2]
  noncomm_ring

/-- The velocity gradient of the shear flow `u = (rate * y, 0)`. -/
def shear (rate : ℝ) : Matrix (Fin 2) (Fin 2) ℝ := !![0, 0; rate, 0]

/-- **C72 (steady shear flow).** In a shear flow the source vanishes exactly for the stresses of the Oldroyd-B
fluid: shear stress viscosity times shear rate, first normal stress difference
`2 * viscosity * relaxation time * rate ^ 2`, no second one. -/
theorem C72_steady_shear {lambdaP : ℝ} (hl : lambdaP ≠ 0) (etaP rate : ℝ)
    (τ : Matrix (Fin 2) (Fin 2) ℝ) :
    source lambdaP etaP (shear rate) τ = 0 ↔
      τ = !![2 * etaP * lambdaP * rate ^ 2, etaP * rate; etaP * rate, 0] := by
  have hv : source lambdaP etaP (shear rate) τ =
      !![τ 0 1 * rate + rate * τ 1 0 - τ 0 0 / lambdaP,
         rate * τ 1 1 + (etaP * rate - τ 0 1) / lambdaP;
         τ 1 1 * rate + (etaP * rate - τ 1 0) / lambdaP, - τ 1 1 / lambdaP] := by
    ext i j
    fin_cases i <;> fin_cases j <;>
      simp [source, shear, Matrix.mul_apply, Fin.sum_univ_two, Matrix.add_apply, Matrix.smul_apply,
        Matrix.sub_apply, Matrix.transpose_apply] <;> field_simp <;> ring
  rw [hv]
  constructor
  · intro h
    have h00 := congrFun (congrFun h 0) 0
    have h01 := congrFun (congrFun h 0) 1
    have h10 := congrFun (congrFun h 1) 0
    have h11 := congrFun (congrFun h 1) 1
    simp at h00 h01 h10 h11
    rcases h11 with h11 | h11
    · rw [h11] at h01 h10
      simp at h01 h10
      have e01 : τ 0 1 = etaP * rate := by
        rcases h01 with h | h
        · linarith
        · exact absurd h hl
      have e10 : τ 1 0 = etaP * rate := by
        rcases h10 with h | h
        · linarith
        · exact absurd h hl
      rw [e01, e10] at h00
      have e00 : τ 0 0 = 2 * etaP * lambdaP * rate ^ 2 := by
        field_simp at h00
        linarith
      ext i j
      fin_cases i <;> fin_cases j <;> simp [e00, e01, e10, h11]
    · exact absurd h11 hl
  · intro h
    rw [h]
    ext i j
    fin_cases i <;> fin_cases j <;> simp <;> field_simp <;> ring

/-! ### The force -/

theorem norm_neg (d : Vec D) : norm (-d) = norm d := by
  simp [norm]

theorem norm_ne_zero {d : Vec D} (hd : d ≠ 0) : norm d ≠ 0 := by
  intro h
  apply hd
  rw [norm, Real.sqrt_eq_zero (Finset.sum_nonneg fun i _ => sq_nonneg _)] at h
  rw [Finset.sum_eq_zero_iff_of_nonneg fun i _ => sq_nonneg _] at h
  funext i
  have := h i (Finset.mem_univ i)
  simpa using this

theorem norm_eq (d : Vec D) : norm d = ∑ i, (d i : ℝ) * (d i : ℝ) / norm d := by
  rw [← Finset.sum_div]
  have : ∑ i, (d i : ℝ) * (d i : ℝ) = norm d * norm d := by
    rw [norm, Real.mul_self_sqrt (Finset.sum_nonneg fun i _ => sq_nonneg _)]
    exact Finset.sum_congr rfl fun i _ => by ring
  rw [this]
  by_cases h : norm d = 0
  · simp [h]
  · field_simp

theorem map_add_sum {α : Type} (l : List α) (f g : α → ℝ) :
    (l.map fun d => f d + g d).sum = (l.map f).sum + (l.map g).sum := by
  induction l with
  | nil => simp
  | cons a l ih => simp only [List.map_cons, List.sum_cons, ih]; ring

theorem map_mul_sum {α : Type} (l : List α) (r : ℝ) (f : α → ℝ) :
    (l.map fun d => r * f d).sum = r * (l.map f).sum := by
  induction l with
  | nil => simp
  | cons a l ih => simp only [List.map_cons, List.sum_cons, ih]; ring

theorem map_finset_sum {α ι : Type} (s : Finset ι) (l : List α) (f : ι → α → ℝ) :
    (l.map fun d => ∑ i ∈ s, f i d).sum = ∑ i ∈ s, (l.map (f i)).sum := by
  induction l with
  | nil => simp
  | cons a l ih => simp only [List.map_cons, List.sum_cons, ih, Finset.sum_add_distrib]

section Force

variable {X : Type} [AddCommGroup X] {off : Vec D →+ X}

/-- The force in terms of the stored directions only. -/
theorem force_eq {half : List (Vec D)} (hh : ∀ d ∈ half, -d ∉ half)
    (store : Vec D → X → Matrix (Fin D) (Fin D) ℝ) (x : X) (j : Fin D) :
    force off half store x j =
      (half.map fun d => ∑ i, (store d x i j - store d (x - off d) i j) * (d i : ℝ) / norm d).sum /
        (2 * (half.map norm).sum) * 2 * D := by
  have h1 : (half.map fun d => (∑ i, faceAccess off half store d x i j * (d i : ℝ)) / norm d)
      = half.map fun d => (∑ i, store d x i j * (d i : ℝ)) / norm d := by
    apply List.map_congr_left
    intro d hd
    simp [faceAccess, hd]
  have h2 : ((half.map fun d => -d).map fun d =>
        (∑ i, faceAccess off half store d x i j * (d i : ℝ)) / norm d)
      = half.map fun d => -((∑ i, store d (x - off d) i j * (d i : ℝ)) / norm d) := by
    rw [List.map_map]
    apply List.map_congr_left
    intro d hd
    simp [faceAccess, hh d hd, norm_neg, sub_eq_add_neg, neg_div]
  have h3 : ((half.map fun d => -d).map norm) = half.map norm := by
    rw [List.map_map]
    apply List.map_congr_left
    intro d _
    exact norm_neg d
  simp only [force, fullStencil, List.map_append, List.sum_append]
  rw [h1, h2, h3, ← map_add_sum, two_mul]
  congr 4
  apply List.map_congr_left
  intro d _
  rw [← sub_eq_add_neg, ← sub_div, ← Finset.sum_sub_distrib, Finset.sum_div]
  exact Finset.sum_congr rfl fun i _ => by ring

theorem sum_norm_isotropic {half : List (Vec D)} {κ : ℝ} (hi : Spec.Isotropic half κ) :
    (half.map norm).sum = D * κ := by
  have : half.map norm = half.map fun d => ∑ i, (d i : ℝ) * (d i : ℝ) / norm d :=
    List.map_congr_left fun d _ => norm_eq d
  rw [this, map_finset_sum]
  rw [Finset.sum_congr rfl fun i _ => by rw [hi i i, if_pos rfl]]
  simp

/-- **C72 (the force is the divergence of the stress).** For a stress whose components are polynomials of
degree at most two the force computed from the face stresses is the divergence of the stress - exactly, in
every cell - for every isotropic set of faces.  In general its error is therefore of second order. -/
theorem C72_force_is_divergence {half : List (Vec D)} (hh : ∀ d ∈ half, -d ∉ half) {κ : ℝ} (hκ : κ ≠ 0)
    (hi : Spec.Isotropic half κ) (hD : 0 < D) (a : Fin D → Fin D → ℝ) (b : Fin D → Fin D → Fin D → ℝ)
    (c : Fin D → Fin D → Fin D → Fin D → ℝ) (x : Vec D) (j : Fin D) :
    force (AddMonoidHom.id _) half (tauface (AddMonoidHom.id _) (Spec.quadratic a b c)) x j =
      Spec.quadraticDiv b c x j := by
  rw [force_eq hh, sum_norm_isotropic hi]
  have hdiff : ∀ d : Vec D, ∀ i, tauface (AddMonoidHom.id _) (Spec.quadratic a b c) d x i j
      - tauface (AddMonoidHom.id _) (Spec.quadratic a b c) d (x - AddMonoidHom.id _ d) i j
      = ∑ k, (d k : ℝ) * Spec.quadraticDiff b c x i j k := by
    intro d i
    simp only [tauface, Matrix.smul_apply, Matrix.add_apply, AddMonoidHom.id_apply, sub_add_cancel,
      Spec.quadratic, Spec.quadraticDiff, Pi.add_apply, Pi.sub_apply, smul_eq_mul]
    push_cast
    have e : ∀ k : Fin D, (d k : ℝ) * (b i j k + ∑ l, (c i j k l + c i j l k) * (x l : ℝ)) =
        b i j k * d k + ∑ l, c i j k l * (d k : ℝ) * x l + ∑ l, c i j l k * (x l : ℝ) * d k := by
      intro k
      rw [mul_add, Finset.mul_sum, add_assoc, ← Finset.sum_add_distrib]
      congr 1
      · ring
      · exact Finset.sum_congr rfl fun l _ => by ring
    rw [Finset.sum_congr rfl fun k _ => e k]
    simp only [Finset.sum_add_distrib]
    rw [Finset.sum_comm (f := fun k l => c i j l k * (x l : ℝ) * (d k : ℝ))]
    have q : ∀ y z : Fin D → ℝ,
        ∑ k, ∑ l, c i j k l * (y k + z k) * (y l + z l) - ∑ k, ∑ l, c i j k l * (y k - z k) * (y l - z l)
        = 2 * (∑ k, ∑ l, c i j k l * z k * y l) + 2 * (∑ k, ∑ l, c i j k l * y k * z l) := by
      intro y z
      simp only [Finset.mul_sum]
      rw [← Finset.sum_sub_distrib, ← Finset.sum_add_distrib]
      refine Finset.sum_congr rfl fun k _ => ?_
      rw [← Finset.sum_sub_distrib, ← Finset.sum_add_distrib]
      exact Finset.sum_congr rfl fun l _ => by ring
    have p : ∀ y z : Fin D → ℝ, ∑ k, b i j k * (y k + z k) - ∑ k, b i j k * (y k - z k)
        = 2 * ∑ k, b i j k * z k := by
      intro y z
      rw [Finset.mul_sum, ← Finset.sum_sub_distrib]
      exact Finset.sum_congr rfl fun l _ => by ring
    have q' := q (fun k => (x k : ℝ)) (fun k => (d k : ℝ))
    have p' := p (fun k => (x k : ℝ)) (fun k => (d k : ℝ))
    linarith
  have hsum : (half.map fun d => ∑ i, (tauface (AddMonoidHom.id _) (Spec.quadratic a b c) d x i j
      - tauface (AddMonoidHom.id _) (Spec.quadratic a b c) d (x - AddMonoidHom.id _ d) i j)
        * (d i : ℝ) / norm d).sum = κ * Spec.quadraticDiv b c x j := by
    have e : ∀ d : Vec D, ∑ i, (tauface (AddMonoidHom.id _) (Spec.quadratic a b c) d x i j
      - tauface (AddMonoidHom.id _) (Spec.quadratic a b c) d (x - AddMonoidHom.id _ d) i j)
        * (d i : ℝ) / norm d = ∑ i, ∑ k, Spec.quadraticDiff b c x i j k *
          ((d i : ℝ) * (d k : ℝ) / norm d) := by
      intro d
      refine Finset.sum_congr rfl fun i _ => ?_
      rw [hdiff, Finset.sum_mul, Finset.sum_div]
      exact Finset.sum_congr rfl fun k _ => by ring
    rw [List.map_congr_left fun d _ => e d, map_finset_sum, Spec.quadraticDiv, Finset.mul_sum]
    refine Finset.sum_congr rfl fun i _ => ?_
    rw [map_finset_sum, Finset.sum_congr rfl fun k _ => by rw [map_mul_sum, hi i k]]
    simp
    ring
  rw [hsum]
  have hD' : (D : ℝ) ≠ 0 := by exact_mod_cast hD.ne'
  field_simp

/-- **C72 (no net force).** In a periodic domain the forces on all cells add up to zero, for every stress
field, every set of faces and whatever the stresses stored at the faces are. -/
theorem C72_no_net_force [Fintype X] {half : List (Vec D)} (hh : ∀ d ∈ half, -d ∉ half)
    (store : Vec D → X → Matrix (Fin D) (Fin D) ℝ) (j : Fin D) :
    ∑ x, force off half store x j = 0 := by
  rw [Finset.sum_congr rfl fun x _ => force_eq hh store x j]
  rw [← Finset.sum_mul, ← Finset.sum_mul, ← Finset.sum_div]
  have h0 : ∑ x, (half.map fun d =>
      ∑ i, (store d x i j - store d (x - off d) i j) * (d i : ℝ) / norm d).sum = 0 := by
    rw [← map_finset_sum]
    have e : ∀ d : Vec D, ∑ x,
        (∑ i, (store d x i j - store d (x - off d) i j) * (d i : ℝ) / norm d) = 0 := by
      intro d
      rw [Finset.sum_comm]
      apply Finset.sum_eq_zero
      intro i _
      rw [← Finset.sum_div, ← Finset.sum_mul, Finset.sum_sub_distrib]
      have : ∑ x, store d (x - off d) i j = ∑ x, store d x i j :=
        Fintype.sum_equiv (Equiv.subRight (off d)) _ _ fun x => rfl
      rw [this]
      simp
    rw [List.map_congr_left fun d _ => e d]
    simp
  rw [h0]
  simp

/-- **C72 (reaction).** With faces to the nearest neighbours only, the force on a cell is minus the sum of the
forces that `ForceOnBoundary` computes, seen from the other side, for its faces. -/
theorem C72_reaction {half : List (Vec D)} (hn : ∀ d ∈ half, norm d = 1) (hl : half.length = D)
    (hD : 0 < D) (store : Vec D → X → Matrix (Fin D) (Fin D) ℝ) (x : X) (j : Fin D) :
    force off half store x j =
      -((fullStencil half).map fun d => linkForce (faceAccess off half store d x) (-d) j).sum := by
  have hn' : ∀ d ∈ fullStencil half, norm d = 1 := by
    intro d hd
    rw [fullStencil, List.mem_append, List.mem_map] at hd
    rcases hd with hd | ⟨e, he, rfl⟩
    · exact hn d hd
    · rw [norm_neg, hn e he]
  have ha : ((fullStencil half).map norm).sum = 2 * D := by
    rw [List.map_congr_left hn', List.map_const', List.sum_replicate, fullStencil]
    simp [hl]
    ring
  simp only [force]
  rw [ha, List.map_congr_left fun d hd => by rw [hn' d hd, div_one]]
  have hD' : (D : ℝ) ≠ 0 := by exact_mod_cast hD.ne'
  have : ∀ d : Vec D, linkForce (faceAccess off half store d x) (-d) j =
      (-1 : ℝ) * ∑ i, faceAccess off half store d x i j * (d i : ℝ) := by
    intro d
    simp [linkForce]
  rw [List.map_congr_left fun d _ => this d, map_mul_sum]
  field_simp

end Force

/-! ### The sets of faces -/

/-- The sets of faces that staggered fields of pystencils may have. -/
def faces2 : List (Vec 2) := [![-1, 0], ![0, -1]]
/-- The faces and edges in 2D. -/
def faces4 : List (Vec 2) := [![-1, 0], ![0, -1], ![-1, -1], ![-1, 1]]
/-- The faces in 3D. -/
def faces3 : List (Vec 3) := [![-1, 0, 0], ![0, -1, 0], ![0, 0, -1]]
/-- Faces and corners in 3D. -/
def faces7 : List (Vec 3) := faces3 ++ [![-1, -1, -1], ![-1, -1, 1], ![-1, 1, -1], ![-1, 1, 1]]
/-- Faces and edges in 3D. -/
def faces9 : List (Vec 3) :=
  faces3 ++ [![-1, -1, 0], ![-1, 1, 0], ![-1, 0, -1], ![-1, 0, 1], ![0, -1, -1], ![0, -1, 1]]
/-- Faces, edges and corners in 3D. -/
def faces13 : List (Vec 3) :=
  faces9 ++ [![-1, -1, -1], ![-1, -1, 1], ![-1, 1, -1], ![-1, 1, 1]]

/-- **C72 (all sets of faces are isotropic).** So `C72_force_is_divergence` applies to them. -/
theorem C72_faces_isotropic :
    Spec.Isotropic faces2 1 ∧ Spec.Isotropic faces4 (1 + 2 * (Real.sqrt 2)⁻¹) ∧
    Spec.Isotropic faces3 1 ∧ Spec.Isotropic faces7 (1 + 4 * (Real.sqrt 3)⁻¹) ∧
    Spec.Isotropic faces9 (1 + 4 * (Real.sqrt 2)⁻¹) ∧
    Spec.Isotropic faces13 (1 + 4 * (Real.sqrt 2)⁻¹ + 4 * (Real.sqrt 3)⁻¹) := by
  have e2 : (1 : ℝ) + 1 = 2 := by norm_num
  have e3 : (1 : ℝ) + 1 + 1 = 3 := by norm_num
  refine ⟨?_, ?_, ?_, ?_, ?_, ?_⟩ <;> intro i k <;> fin_cases i <;> fin_cases k <;>
    simp [faces2, faces4, faces3, faces7, faces9, faces13, norm, Fin.sum_univ_two, Fin.sum_univ_three,
      e2, e3] <;> ring_nf

/-- **C72 (reaction, other faces).** With the diagonal faces the force computed for a boundary is not the
reaction to the force on the fluid: a stress at one face only. -/
theorem C72_reaction_fails : ∃ (store : Vec 2 → Vec 2 → Matrix (Fin 2) (Fin 2) ℝ),
    force (AddMonoidHom.id _) faces4 store 0 0 ≠
      -((fullStencil faces4).map fun d =>
        linkForce (faceAccess (AddMonoidHom.id _) faces4 store d 0) (-d) 0).sum := by
  refine ⟨fun d x => if d = ![-1, 0] ∧ x = 0 then 1 else 0, ?_⟩
  rw [force_eq (by decide)]
  have e2 : (1 : ℝ) + 1 = 2 := by norm_num
  have hm : ∀ d ∈ fullStencil faces4, linkForce (faceAccess (AddMonoidHom.id _) faces4
      (fun d x => if d = ![-1, 0] ∧ x = 0 then (1 : Matrix (Fin 2) (Fin 2) ℝ) else 0) d 0) (-d) 0 =
      if d = ![-1, 0] then 1 else 0 := by
    intro d hd
    have hcases : d = ![-1, 0] ∨ (d ≠ ![-1, 0] ∧ d ∈ faces4) ∨ (d ∉ faces4 ∧ d ≠ 0) := by
      revert d
      decide
    rcases hcases with rfl | ⟨h1, h2⟩ | ⟨h1, h2⟩
    · simp [linkForce, faceAccess, faces4, Fin.sum_univ_two]
    · simp [linkForce, faceAccess, h1, h2]
    · have h3 : d ≠ ![-1, 0] := by rintro rfl; exact h1 (by decide)
      simp [linkForce, faceAccess, h1, h2, h3]
  rw [List.map_congr_left hm]
  have hs : ((fullStencil faces4).map fun d => if d = ![-1, 0] then (1 : ℝ) else 0).sum = 1 := by
    have : (fullStencil faces4).map (fun d => if d = ![-1, 0] then (1 : ℝ) else 0)
        = [1, 0, 0, 0, 0, 0, 0, 0] := by
      simp [fullStencil, faces4]
    rw [this]
    norm_num
  rw [hs]
  have hx : ∀ d ∈ faces4, (0 : Vec 2) - AddMonoidHom.id _ d ≠ 0 := by decide
  have hl : (faces4.map fun d : Vec 2 => ∑ i, ((if d = ![-1, 0] ∧ (0 : Vec 2) = 0 then
        (1 : Matrix (Fin 2) (Fin 2) ℝ) else 0) i 0 -
        (if d = ![-1, 0] ∧ (0 : Vec 2) - AddMonoidHom.id _ d = 0 then
        (1 : Matrix (Fin 2) (Fin 2) ℝ) else 0) i 0) * (d i : ℝ) / norm d)
      = faces4.map fun d : Vec 2 => if d = ![-1, 0] then (-1 : ℝ) else 0 := by
    apply List.map_congr_left
    intro d hd
    have hxd : ¬ (d = ![-1, 0] ∧ (0 : Vec 2) - AddMonoidHom.id _ d = 0) := fun h => hx d hd h.2
    rw [if_neg hxd]
    by_cases h1 : d = ![-1, 0]
    · subst h1
      simp [Fin.sum_univ_two, norm]
    · simp [h1]
  rw [hl]
  have hs' : (faces4.map fun d => if d = ![-1, 0] then (-1 : ℝ) else 0).sum = -1 := by
    have : (faces4.map fun d => if d = ![-1, 0] then (-1 : ℝ) else 0) = [-1, 0, 0, 0] := by
      simp [faces4]
    rw [this]; norm_num
  rw [hs']
  have hn : (faces4.map norm).sum = 2 + 2 * Real.sqrt 2 := by
    simp [faces4, norm, Fin.sum_univ_two, e2]
    ring
  rw [hn]
  have h2 : 0 < Real.sqrt 2 := Real.sqrt_pos.mpr (by norm_num)
  intro h
  field_simp at h
  push_cast at h
  nlinarith

/-! ### The update in place -/

theorem assignAll_spec (rhs : Fin D → Fin D → Matrix (Fin D) (Fin D) ℝ → ℝ)
    (old : Matrix (Fin D) (Fin D) ℝ) (todo : List (Fin D × Fin D)) (cur : Matrix (Fin D) (Fin D) ℝ)
    (i j : Fin D) :
    assignAll rhs old todo cur i j = if (i, j) ∈ todo then rhs i j old else cur i j := by
  induction todo generalizing cur with
  | nil => simp [assignAll]
  | cons p todo ih =>
    rw [assignAll, ih, Matrix.of_apply]
    by_cases h1 : (i, j) ∈ todo
    · simp [h1]
    · by_cases h2 : (i, j) = p <;> simp [h1, h2]

/-- **C72 (simultaneous update).** Although the components are assigned one after the other, every new value
is computed from the old values of all components. -/
theorem C72_continuity_simultaneous (rhs : Fin D → Fin D → Matrix (Fin D) (Fin D) ℝ → ℝ)
    (τ : Matrix (Fin D) (Fin D) ℝ) : continuity rhs τ = fun i j => rhs i j τ := by
  funext i j
  rw [continuity, assignAll_spec, if_pos]
  simp

/-! ### Boundary values -/

theorem conditional_foldl {β : Type} (l : List β) (start k : ℕ) (init : Option β) :
    (l.zipIdx start).foldl (fun o b => if start + k + 1 = b.2 + 1 then some b.1 else o) init =
      (l[k]?).or init := by
  induction l generalizing start k init with
  | nil => simp
  | cons a l ih =>
    rw [List.zipIdx_cons, List.foldl_cons]
    cases k with
    | zero =>
      simp only [Nat.add_zero, if_true, List.getElem?_cons_zero, Option.or_some]
      have : ∀ (l : List β) (s : ℕ), start < s →
          (l.zipIdx s).foldl (fun o b => if start + 1 = b.2 + 1 then some b.1 else o) (some a)
            = some a := by
        intro l
        induction l with
        | nil => simp
        | cons c l ih' =>
          intro s hs
          rw [List.zipIdx_cons, List.foldl_cons, if_neg (by simp; omega)]
          exact ih' (s + 1) (by omega)
      exact this l (start + 1) (by omega)
    | succ k =>
      rw [if_neg (by simp), List.getElem?_cons_succ]
      have := ih (start + 1) k init
      rw [← this]
      congr 1
      funext o b
      rw [show start + (k + 1) + 1 = start + 1 + k + 1 by omega]

/-- **C72 (one branch per direction).** Of the nested conditional exactly the statement of the direction is
executed, and nothing for the centre and for numbers that are no direction. -/
theorem C72_conditional {β : Type} (branches : List β) :
    conditional branches 0 = none ∧ ∀ k, conditional branches (k + 1) = branches[k]? := by
  constructor
  · unfold conditional
    have : ∀ (l : List (β × ℕ)),
        l.foldl (fun o b => if 0 = b.2 + 1 then some b.1 else o) (none : Option β) = none := by
      intro l
      induction l with
      | nil => rfl
      | cons a l ih => rw [List.foldl_cons, if_neg (by omega)]; exact ih
    exact this _
  · intro k
    have := conditional_foldl branches 0 k none
    simpa [conditional] using this

/-- **C72 (flux boundary).** Whatever the direction, reading the flux through the face returns the value of
the boundary condition. -/
theorem C72_flux_read_back (opposite : Bool) (value : ℝ) :
    readBack opposite (storedValue opposite value) = value := by
  cases opposite <;> simp [readBack, storedValue]

/-- **C72 (zero flux by default).** Without a value nothing flows through the face. -/
theorem C72_default_flux_is_zero {n : ℕ} (opposite : Bool) (i : Fin n) :
    readBack opposite (storedValue opposite (fluxValue (none : Option (Fin n → ℝ)) i)) = 0 := by
  rw [C72_flux_read_back]; rfl

/-- **C72 (extrapolation).** Of a quantity that is a polynomial of at most the given order along the line of
the cells, the value at the face, half a cell away from the centre, is extrapolated exactly. -/
theorem C72_extrapolation_exact {X : Type} [AddCommGroup X] (off : Vec D →+ X) {order : ℕ} {w : List ℝ}
    (hw : extrapolationWeights order = .ok w) (p : Polynomial ℝ) (hp : p.natDegree ≤ order) (src : X → ℝ)
    (o : Vec D) (x : X) (hsrc : ∀ n : ℕ, src (x + off (fun i => -1 * (n : ℤ) * o i)) = p.eval (-(n : ℝ))) :
    extrapolate off w src o x = p.eval (1 / 2) := by
  have h0 := hsrc 0
  have h1 := hsrc 1
  have h2 := hsrc 2
  have hev : ∀ s, p.eval s = ∑ i ∈ Finset.range 3, p.coeff i * s ^ i := by
    intro s
    refine Polynomial.eval_eq_sum_range' ?_ s
    match order, hw with
    | 0, _ => omega
    | 1, _ => omega
    | 2, _ => omega
  match order, hw, hp with
  | 0, hw, hp =>
    simp only [extrapolationWeights, Except.ok.injEq] at hw
    subst hw
    have c1 : p.coeff 1 = 0 := Polynomial.coeff_eq_zero_of_natDegree_lt (by omega)
    have c2 : p.coeff 2 = 0 := Polynomial.coeff_eq_zero_of_natDegree_lt (by omega)
    simp only [extrapolate, List.zipIdx_cons, List.zipIdx_nil, List.map_cons, List.map_nil,
      List.sum_cons, List.sum_nil, h0]
    rw [hev, hev]
    simp [Finset.sum_range_succ, c1, c2]
  | 1, hw, hp =>
    simp only [extrapolationWeights, Except.ok.injEq] at hw
    subst hw
    have c2 : p.coeff 2 = 0 := Polynomial.coeff_eq_zero_of_natDegree_lt (by omega)
    simp only [extrapolate, List.zipIdx_cons, List.zipIdx_nil, List.map_cons, List.map_nil,
      List.sum_cons, List.sum_nil, h0, Nat.zero_add, h1]
    simp only [hev]
    simp [Finset.sum_range_succ, c2]
    ring
  | 2, hw, hp =>
    simp only [extrapolationWeights, Except.ok.injEq] at hw
    subst hw
    simp only [extrapolate, List.zipIdx_cons, List.zipIdx_nil, List.map_cons, List.map_nil,
      List.sum_cons, List.sum_nil, h0, Nat.zero_add, h1, Nat.reduceAdd, h2]
    simp only [hev]
    simp [Finset.sum_range_succ]
    ring

/-- **C72 (higher orders are rejected).** -/
theorem C72_extrapolation_orders (order : ℕ) :
    (∃ w, extrapolationWeights order = .ok w ∧ w.length = order + 1) ∧ order ≤ 2 ∨
      extrapolationWeights order = .error .notImplemented ∧ 2 < order := by
  match order with
  | 0 => exact Or.inl ⟨⟨_, rfl, rfl⟩, by omega⟩
  | 1 => exact Or.inl ⟨⟨_, rfl, rfl⟩, by omega⟩
  | 2 => exact Or.inl ⟨⟨_, rfl, rfl⟩, by omega⟩
  | n + 3 => exact Or.inr ⟨rfl, by omega⟩

/-- **C72 (`ForceOnBoundary` cannot be created).** With the default name and with every name that is a string
the constructor raises a TypeError, as the base class initialiser is not what `super(ForceOnBoundary).__init__`
calls. -/
theorem C72_force_on_boundary_raises (staggered : Bool) (s : String) :
    forceOnBoundaryInit staggered .none = .error .typeError ∧
      forceOnBoundaryInit staggered (.str s) = .error .typeError ∧
      forceOnBoundaryInit staggered .type = (if staggered then .error .assertion else .ok ()) :=
  ⟨rfl, rfl, rfl⟩

/-- **C72 (advection).** The divergence of the flux is the advection of every component of the stress, plus the compression, which vanishes
for a solenoidal velocity. `du k l`, `dt k` are the derivatives in direction `k`. -/
theorem C72_flux_divergence (u : (Fin D → ℝ) → Fin D → ℝ) (τ : (Fin D → ℝ) → Matrix (Fin D) (Fin D) ℝ) (x : Fin D → ℝ)
    (du : Fin D → Fin D → ℝ) (dt : Fin D → Matrix (Fin D) (Fin D) ℝ)
    (hu : ∀ k l, HasDerivAt (fun s => u (Function.update x k s) l) (du k l) (x k))
    (ht : ∀ k i j, HasDerivAt (fun s => τ (Function.update x k s) i j) (dt k i j) (x k)) (i j : Fin D) :
    ∃ d : Fin D → ℝ, (∀ k, HasDerivAt (fun s => flux (u (Function.update x k s)) (τ (Function.update x k s)) k i j) (d k) (x k)) ∧
      ∑ k, d k = ∑ k, u x k * dt k i j + (∑ k, du k k) * τ x i j := by
  refine ⟨fun k => du k k * τ x i j + u x k * dt k i j, fun k => ?_, ?_⟩
  · have := (hu k k).mul (ht k i j)
    simp only [Function.update_eq_self] at this
    exact this
  · rw [Finset.sum_add_distrib, Finset.sum_mul, add_comm]


/-! ### Examples -/

example : Spec.Isotropic faces9 (1 + 4 * (Real.sqrt 2)⁻¹) := C72_faces_isotropic.2.2.2.2.1

example (a b c) (x : Vec 2) (j) :
    force (AddMonoidHom.id _) faces4 (tauface (AddMonoidHom.id _) (Spec.quadratic a b c)) x j =
      Spec.quadraticDiv b c x j :=
  C72_force_is_divergence (by decide) (by positivity) C72_faces_isotropic.2.1 (by norm_num) a b c x j

/-- The offsets of a periodic array. -/
def torusOff (n : ℕ) : Vec 2 →+ (Fin 2 → ZMod n) where
  toFun d i := (d i : ZMod n)
  map_zero' := by funext i; simp
  map_add' a b := by funext i; simp

example (store : Vec 2 → (Fin 2 → ZMod 5) → Matrix (Fin 2) (Fin 2) ℝ) :
    ∑ x, force (torusOff 5) faces4 store x 0 = 0 :=
  C72_no_net_force (by decide) store 0

example (store : Vec 2 → Vec 2 → Matrix (Fin 2) (Fin 2) ℝ) (x : Vec 2) :
    force (AddMonoidHom.id _) faces2 store x 1 = -((fullStencil faces2).map fun d =>
      linkForce (faceAccess (AddMonoidHom.id _) faces2 store d x) (-d) 1).sum :=
  C72_reaction (by simp [faces2, norm, Fin.sum_univ_two]) rfl (by norm_num) store x 1

example : source 2 3 (shear 5) !![300, 15; 15, 0] = 0 := by
  rw [C72_steady_shear (by norm_num)]
  norm_num

/-- A rotation by a right angle and an angular velocity. -/
example (G τ : Matrix (Fin 2) (Fin 2) ℝ) :
    source 2 3 (!![0, -1; 1, 0] * G * !![0, -1; 1, 0]ᵀ - !![0, -7; 7, 0])
        (!![0, -1; 1, 0] * τ * !![0, -1; 1, 0]ᵀ) =
      !![0, -7; 7, 0] * (!![0, -1; 1, 0] * τ * !![0, -1; 1, 0]ᵀ)
        - (!![0, -1; 1, 0] * τ * !![0, -1; 1, 0]ᵀ) * !![0, -7; 7, 0]
        + !![0, -1; 1, 0] * source 2 3 G τ * !![0, -1; 1, 0]ᵀ :=
  C72_source_objective 2 3 G τ _ _
    (by ext i j; fin_cases i <;> fin_cases j <;> simp [Matrix.mul_apply, Fin.sum_univ_two])
    (by ext i j; fin_cases i <;> fin_cases j <;> simp)

example : (source 2 3 (shear 5) !![1, 2; 2, 4])ᵀ = source 2 3 (shear 5) !![1, 2; 2, 4] :=
  C72_source_symmetric _ _ _ _ (by ext i j; fin_cases i <;> fin_cases j <;> rfl)

/-- Extrapolation of `1 + 2 s + 3 s ^ 2` along the first axis. -/
example : extrapolate (AddMonoidHom.id (Vec 1)) [15 / 8, -(10 / 8), 3 / 8]
    (fun x => 1 + 2 * (x 0 : ℝ) + 3 * (x 0 : ℝ) ^ 2) ![1] 0 =
      (Polynomial.C 1 + Polynomial.C 2 * Polynomial.X + Polynomial.C 3 * Polynomial.X ^ 2 :
        Polynomial ℝ).eval (1 / 2) :=
  C72_extrapolation_exact (order := 2) _ rfl _ (by compute_degree) _ _ _ (by intro n; simp)

example : conditional ["W", "S", "E", "N"] 3 = some "E" := (C72_conditional _).2 2

end OldroydB
end Lbm
