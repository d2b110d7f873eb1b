/-
Property theorems C29, C30, C31, C45: interpolated bounce back, velocity bounce back, outflow, anti-bounce-back.
-/
import Verif.Props.BoundaryRules
import Mathlib.Algebra.Order.AbsoluteValue.Basic
import Mathlib.Analysis.Real.Sqrt
import Mathlib.Tactic.Positivity
import Mathlib.Tactic.NormNum

set_option linter.unusedSectionVars false

namespace Lbm

variable {D : ℕ} {G V : Type} [AddCommGroup G] [DecidableEq G]
variable {K : Type} [Field K]

/-! ### C29: interpolated bounce back -/

section bouzidi
variable [LinearOrder K] [IsStrictOrderedRing K]

/-- C29: for `q = 1/2`, and whenever no wall distance is set (default `-1`, any `q ≤ 0`), linear Bouzidi is no-slip. -/
theorem C29_bouzidi_reduces_to_no_slip (q fxf fxfInv dx2f : K) (hq : q = 1 / 2 ∨ q ≤ 0) :
    bouzidi q fxf fxfInv dx2f = fxf := by
  unfold bouzidi
  rcases hq with rfl | hq
  · rw [if_pos le_rfl]; field_simp; ring
  · have h1 : ¬ (1 / 2 ≤ q) := by
      intro h; have : (0 : K) < 1 / 2 := by positivity
      linarith
    rw [if_neg h1, if_neg (fun h => absurd h.1 (not_lt.2 hq))]

/-- C29: continuity at `q = 1/2` from both sides: the deviation from no-slip is at most `|2q - 1|` times the
difference of the involved populations. -/
theorem C29_bouzidi_continuous_at_half (q fxf fxfInv dx2f : K) :
    (1 / 2 ≤ q → |bouzidi q fxf fxfInv dx2f - fxf| ≤ (2 * q - 1) * |fxfInv - fxf|) ∧
    (0 < q → q < 1 / 2 → |bouzidi q fxf fxfInv dx2f - fxf| ≤ (1 - 2 * q) * |dx2f - fxf|) := by
  constructor
  · intro h
    have hq : 0 < q := lt_of_lt_of_le (by positivity) h
    have h2 : 0 ≤ 2 * q - 1 := by linarith
    unfold bouzidi
    rw [if_pos h]
    have : 1 / 2 * (fxf + fxfInv * (2 * q - 1)) / q - fxf = (2 * q - 1) / (2 * q) * (fxfInv - fxf) := by
      field_simp; ring
    rw [this, abs_mul, abs_of_nonneg (by positivity)]
    refine mul_le_mul_of_nonneg_right ?_ (abs_nonneg _)
    exact div_le_self h2 (by linarith)
  · intro h0 h1
    unfold bouzidi
    rw [if_neg (not_le.2 h1), if_pos ⟨h0, h1⟩]
    have : 2 * q * fxf + (1 - 2 * q) * dx2f - fxf = (1 - 2 * q) * (dx2f - fxf) := by ring
    rw [this, abs_mul, abs_of_nonneg (by linarith)]

/-- C29: for every wall distance the result lies between the smallest and largest of the populations used; in
particular non-negative populations stay non-negative. -/
theorem C29_bouzidi_convex (q fxf fxfInv dx2f lo hi : K) (h1 : lo ≤ fxf ∧ fxf ≤ hi)
    (h2 : lo ≤ fxfInv ∧ fxfInv ≤ hi) (h3 : lo ≤ dx2f ∧ dx2f ≤ hi) :
    lo ≤ bouzidi q fxf fxfInv dx2f ∧ bouzidi q fxf fxfInv dx2f ≤ hi := by
  unfold bouzidi
  split_ifs with ha hb
  · have hq : 0 < q := lt_of_lt_of_le (by positivity) ha
    have h : 0 ≤ 2 * q - 1 := by linarith
    rw [le_div_iff₀ hq, div_le_iff₀ hq]
    have e1 := mul_nonneg (sub_nonneg.2 h2.1) h
    have e2 := mul_nonneg (sub_nonneg.2 h2.2) h
    constructor <;> nlinarith [h1.1, h1.2]
  · have e1 := mul_nonneg (sub_nonneg.2 h1.1) hb.1.le
    have e2 := mul_nonneg (sub_nonneg.2 h1.2) hb.1.le
    have h : 0 ≤ 1 - 2 * q := by linarith [hb.2]
    have e3 := mul_nonneg (sub_nonneg.2 h3.1) h
    have e4 := mul_nonneg (sub_nonneg.2 h3.2) h
    constructor <;> nlinarith
  · exact h1

/-- C29: exactness. If the population travelling along the link varies linearly with position (`α + β s` at distance
`s` behind the fluid node) then for `0 < q < 1/2` the value handed back is that of the point from which a particle
reaches the node after travelling one lattice distance and being reflected at distance `q`. -/
theorem C29_bouzidi_exact_linear (q α β fxfInv : K) (h0 : 0 < q) (h1 : q < 1 / 2) :
    bouzidi q α fxfInv (α + β * 1) = α + β * (1 - 2 * q) := by
  unfold bouzidi
  rw [if_neg (not_le.2 h1), if_pos ⟨h0, h1⟩]; ring

/-- C29: the same for `1/2 ≤ q`: if the arriving (reflected) population varies linearly, being `a` where the particle
starting at the node ends up, at distance `2q - 1` in front of the node, and `b` one cell further, then the value
interpolated to the node is the one computed from these two. -/
theorem C29_bouzidi_exact_linear_far (q α β dx2f : K) (h : 1 / 2 ≤ q) :
    bouzidi q (α + β * (2 * q - 1)) (α + β * (-1)) dx2f = α := by
  have hq : 0 < q := lt_of_lt_of_le (by positivity) h
  unfold bouzidi
  rw [if_pos h, div_eq_iff hq.ne']; ring

/-- C29: the Bouzidi kernel in any streaming pattern. `f_in(dir)` is the post-collision population of the second fluid
cell, provided that cell is fluid; then the order of the links does not matter and each linked cell reads the formula
above applied to the post-collision populations. -/
theorem C29_bouzidi_kernel (φ : Vec D →+ G) {S : Stencil D} {p : String} (hs : Supported S p)
    (hc : S.InvClosed) (t : ℕ) (inv : Fin S.Q → Fin S.Q)
    (q : G → Fin S.Q → K) (fluid : Set G) (links : List (G × Fin S.Q))
    (hl : ∀ l ∈ links, l.1 ∈ fluid ∧ l.1 + φ (S.c l.2) ∉ fluid)
    (h2 : ∀ l ∈ links, 0 < q l.1 l.2 → q l.1 l.2 < 1 / 2 → l.1 - φ (S.c l.2) ∈ fluid) (f : G × Fin S.Q → K) :
    ∃ f' w r r', boundaryHook φ S p (bouzidiRule inv q) links t f = some f' ∧ writtenPops φ S p t f = some w ∧
      readPops φ S p (t + 1) f = some r ∧ readPops φ S p (t + 1) f' = some r' ∧
      (∀ y j j', (y, j) ∈ links → S.c j' = -S.c j →
        r' y j' = bouzidi (q y j) (w y j) (w y (inv j)) (w (y - φ (S.c j)) j)) ∧
      (∀ x i, (∀ j, S.c i = -S.c j → (x, j) ∉ links) → r' x i = r x i) := by
  have hloc : ∀ l ∈ links, Rule.Local φ S fluid (bouzidiRule inv q) l := by
    intro l hl' g g' h h' hg hh
    unfold bouzidiRule
    rw [hg l.1 (hl l hl').1, hg l.1 (hl l hl').1]
    unfold bouzidi
    split_ifs with ha hb
    · rfl
    · rw [hh l.1 l.2 (h2 l hl' hb.1 hb.2)]
    · rfl
  obtain ⟨f', w, r, r', h1, e2, h3, h4, h5, h6⟩ := boundaryHook_sem φ hs hc t (bouzidiRule inv q) fluid links hl hloc f
  refine ⟨f', w, r, r', h1, e2, h3, h4, ?_, h6⟩
  intro y j j' hm hj
  rw [h5 y j j' hm hj]
  unfold bouzidiRule
  congr 1
  obtain ⟨ts, a, rd, wr, rd', -, F, -, hw, hr'⟩ := runFacts (G := G) (V := K) hs t
  rw [hw] at e2; cases e2
  rw [hr'] at h3; cases h3
  show f (loc φ y (rd' j)) = f (loc φ (y - φ (S.c j)) (wr j))
  rw [loc_wr φ F, sub_add_cancel]

end bouzidi

/-- A two-direction stencil on a line, for the example of a gap one cell wide. -/
def exLine : Stencil 1 := Stencil.ofInts 1 [[0], [1], [-1]]
instance : NeZero exLine.Q := ⟨by decide⟩
def exLineInv : Fin exLine.Q → Fin exLine.Q := ![0, 2, 1]
def exLineHom : Vec 1 →+ ℤ := ⟨⟨fun v => v 0, rfl⟩, fun _ _ => rfl⟩

/-- C29: in a gap one cell wide (second cell not fluid) with `0 < q < 1/2` the result depends on the order of the index
list, so falling back to no-slip there is not automatic but left to the user's callback. -/
theorem C29_bouzidi_narrow_gap_order_dependent :
    ∃ f : ℤ × Fin exLine.Q → ℚ,
      (boundaryHook exLineHom exLine "pull" (bouzidiRule exLineInv fun _ _ => 1 / 4) [(0, 1), (0, 2)] 0 f).map
        (fun f' => f' (-1, 1)) ≠
      (boundaryHook exLineHom exLine "pull" (bouzidiRule exLineInv fun _ _ => 1 / 4) [(0, 2), (0, 1)] 0 f).map
        (fun f' => f' (-1, 1)) := by
  refine ⟨fun k => if k = (0, 1) then 1 else 0, ?_⟩
  decide +kernel

/-- C29: quadratic bounce back hands back an unchanged pair of equal populations when these are in equilibrium, for
every wall distance. -/
theorem C29_quadratic_consistent (q ω f : K) (h2 : (2 : K) ≠ 0) (hq : 1 + q ≠ 0) (hω : 1 - ω ≠ 0) :
    quadraticBounceBack q ω (2 * f) f f = f := by
  unfold quadraticBounceBack
  field_simp
  ring

/-- C29: with the post-collision populations of a single-relaxation-time collision, `f* = f + ω (eq - f)`, quadratic
bounce back is `((1-q)/(1+q)) (f*_j - f*_inv + f_j + f_inv)/2 + (q/(1+q)) (f*_j + f*_inv)`: the division by `1 - ω`
recovers the pre-collision populations. -/
theorem C29_quadratic_recovers_pre_collision (q ω fj fi ej ei : K) (hω : 1 - ω ≠ 0) :
    quadraticBounceBack q ω (ej + ei) (fj + ω * (ej - fj)) (fi + ω * (ei - fi)) =
      (1 - q) / (1 + q) * (((fj + ω * (ej - fj)) - (fi + ω * (ei - fi)) + (fj + fi)) / 2) +
        q / (1 + q) * ((fj + ω * (ej - fj)) + (fi + ω * (ei - fi))) := by
  unfold quadraticBounceBack
  have : (fj + ω * (ej - fj) + (fi + ω * (ei - fi)) - (ej + ei) * ω) / (1 - ω) = fj + fi := by
    rw [div_eq_iff hω]; ring
  simp only [this]
  ring

/-- C29: the warning of `QuadraticBounceBack` ("will fall back to a simple NoSlip BC" when no wall distance is given,
i.e. for `q = 1/2`) is not true: the value differs from `f_out(dir)` in general. -/
theorem C29_quadratic_default_is_not_no_slip :
    ∃ ω feq fxf fxfInv : ℚ, 0 < ω ∧ ω < 2 ∧ ω ≠ 1 ∧ quadraticBounceBack (1 / 2) ω feq fxf fxfInv ≠ fxf :=
  ⟨1 / 2, 3, 1, 2, by decide +kernel, by decide +kernel, by decide +kernel, by decide +kernel⟩

/-! ### C30: velocity bounce back -/

section ubb
variable {S : Stencil D}

/-- C30: for a wall at rest UBB is no-slip. -/
theorem C30_ubb_zero_velocity [DecidableEq K] (w : Fin S.Q → K) (compr : Bool) (ρ : Option K) (bg : K) (y : G)
    (j : Fin S.Q) (fout fin : G → Fin S.Q → K) :
    ubbRule w compr ρ bg (fun _ _ _ => 0) y j fout fin = noSlipRule y j fout fin := by
  simp [ubbRule, ubbVelTerm, noSlipRule]

/-- C30: the correction is `6 w_j (c_j · u)`, times the density for compressible methods. -/
theorem C30_ubb_value [DecidableEq K] (w : Fin S.Q → K) (bg : K) (u : Fin D → K) (y : G) (j : Fin S.Q)
    (fout fin : G → Fin S.Q → K) :
    ubbRule w false none bg (fun _ _ => u) y j fout fin = fout y j - 6 * w j * ∑ k, (S.c j k : K) * u k ∧
    ubbRule w true none bg (fun _ _ => u) y j fout fin =
      fout y j - 6 * w j * (∑ i, fout y i + bg) * ∑ k, (S.c j k : K) * u k := by
  constructor <;> simp [ubbRule, ubbVelTerm, ubbDensity] <;> ring

/-- C30: the corrections of a link direction and its reverse cancel. -/
theorem C30_ubb_odd (w : Fin S.Q → K) (u : Fin D → K) {j j' : Fin S.Q} (hj : S.c j' = -S.c j) (hw : w j' = w j) :
    ubbVelTerm w u j' = -ubbVelTerm w u j := by
  unfold ubbVelTerm
  have : ∑ k, (S.c j' k : K) * u k = -∑ k, (S.c j k : K) * u k := by
    rw [← Finset.sum_neg_distrib]
    refine Finset.sum_congr rfl fun k _ => ?_
    rw [hj]; push_cast [Pi.neg_apply]; ring
  rw [this, hw]; ring

/-- Reindexing by an involution that flips a quantity. -/
theorem sum_involution_neg {ι : Type} [DecidableEq ι] (s : Finset ι) (e : ι → ι) (he : ∀ i, e (e i) = i)
    (hs : ∀ i ∈ s, e i ∈ s) (h : ι → K) (h2 : (2 : K) ≠ 0) (hneg : ∀ i ∈ s, h (e i) = -h i) : ∑ i ∈ s, h i = 0 := by
  have : ∑ i ∈ s, h i = ∑ i ∈ s, h (e i) :=
    Finset.sum_bij' (fun i _ => e i) (fun i _ => e i) hs hs (fun i _ => he i) (fun i _ => he i)
      (fun i _ => by rw [he])
  rw [Finset.sum_congr rfl hneg, Finset.sum_neg_distrib] at this
  have h3 : (2 : K) * ∑ i ∈ s, h i = 0 := by linear_combination this
  exact (mul_eq_zero.1 h3).resolve_left h2

/-- C30: a cell surrounded by wall on all sides receives no net mass. -/
theorem C30_ubb_no_net_mass (hv : S.Valid) (hc : S.InvClosed) (h2 : (2 : K) ≠ 0) (w : Fin S.Q → K)
    (hw : ∀ i j, S.c j = -S.c i → w j = w i) (u : Fin D → K) : ∑ j, ubbVelTerm w u j = 0 := by
  obtain ⟨inv, -, hcinv⟩ := inv_table hv hc
  exact sum_involution_neg _ inv (fun i => hv (by rw [hcinv, hcinv, neg_neg])) (by simp) _ h2
    fun i _ => C30_ubb_odd w u (hcinv i) (hw _ _ (hcinv i))

/-- C30: a straight wall moving tangentially injects no net mass: the corrections of all links crossing it cancel. -/
theorem C30_ubb_tangential_wall (hv : S.Valid) (hc : S.InvClosed) (a : Fin D) (hm : S.MirrorClosed a)
    (h2 : (2 : K) ≠ 0) (w : Fin S.Q → K) (hw : ∀ i j, S.c j = -S.c i → w j = w i)
    (hw' : ∀ i j, S.c j = mirror a (S.c i) → w j = w i) (u : Fin D → K) (hu : u a = 0) (s : ℤ) :
    ∑ j with S.c j a = s, ubbVelTerm w u j = 0 := by
  obtain ⟨inv, -, hcinv⟩ := inv_table hv hc
  obtain ⟨mir, -, hcmir⟩ := mirror_table hv hm
  have hcc : ∀ i k, S.c (inv (mir i)) k = if k = a then S.c i k else -S.c i k := by
    intro i k; rw [hcinv, Pi.neg_apply, hcmir, mirror_apply]; split_ifs <;> simp
  refine sum_involution_neg _ (fun i => inv (mir i)) ?_ ?_ _ h2 ?_
  · intro i
    apply hv; funext k
    rw [hcc]; split_ifs with h
    · rw [hcc, if_pos h]
    · rw [hcc, if_neg h, neg_neg]
  · intro i hi
    simp only [Finset.mem_filter, Finset.mem_univ, true_and] at hi ⊢
    rw [hcc, if_pos rfl, hi]
  · intro i _
    unfold ubbVelTerm
    have : ∑ k, (S.c (inv (mir i)) k : K) * u k = -∑ k, (S.c i k : K) * u k := by
      rw [← Finset.sum_neg_distrib]
      refine Finset.sum_congr rfl fun k _ => ?_
      rw [hcc]
      by_cases hk : k = a
      · rw [hk, hu]; simp
      · rw [if_neg hk]; push_cast; ring
    rw [this, hw _ _ (hcinv _), hw' _ _ (hcmir i)]; ring

/-- C30: momentum handed over by a fully surrounded cell, for weights with the usual second-order isotropy
`∑ w c_k c_l = δ_kl / 3`: twice the wall velocity (times density). -/
theorem C30_ubb_momentum [DecidableEq (Fin D)] (h3 : (3 : K) ≠ 0) (w : Fin S.Q → K)
    (hiso : ∀ k l, ∑ j, w j * (S.c j k : K) * (S.c j l : K) = if k = l then 1 / 3 else 0) (u : Fin D → K)
    (k : Fin D) : ∑ j, (S.c j k : K) * ubbVelTerm w u j = 2 * u k := by
  unfold ubbVelTerm
  have : ∀ j, (S.c j k : K) * (2 / (1 / 3) * (∑ l, (S.c j l : K) * u l) * w j) =
      ∑ l, 6 * u l * (w j * (S.c j k : K) * (S.c j l : K)) := by
    intro j
    rw [show (2 : K) / (1 / 3) = 6 by field_simp; norm_num, Finset.mul_sum, Finset.sum_mul, Finset.mul_sum]
    exact Finset.sum_congr rfl fun l _ => by ring
  rw [Finset.sum_congr rfl fun j _ => this j, Finset.sum_comm]
  have : ∀ l, ∑ j, 6 * u l * (w j * (S.c j k : K) * (S.c j l : K)) = if k = l then 2 * u l else 0 := by
    intro l
    rw [← Finset.mul_sum, hiso]
    split_ifs
    · field_simp; ring
    · ring
  rw [Finset.sum_congr rfl fun l _ => this l]
  simp

/-- C30: a prescribed wall density of zero is ignored. -/
theorem C30_ubb_density_zero_ignored [DecidableEq K] {Q : ℕ} (bg : K) (f : Fin Q → K) :
    ubbDensity true (some 0) bg f = ubbDensity true none bg f := by
  simp [ubbDensity]

/-- C30: the UBB kernel in any streaming pattern. -/
theorem C30_ubb_kernel [DecidableEq K] (φ : Vec D →+ G) {p : String} (hs : Supported S p) (hc : S.InvClosed) (t : ℕ)
    (w : Fin S.Q → K) (compr : Bool) (ρ : Option K) (bg : K) (u : G → Fin S.Q → Fin D → K) (fluid : Set G)
    (links : List (G × Fin S.Q)) (hl : ∀ l ∈ links, l.1 ∈ fluid ∧ l.1 + φ (S.c l.2) ∉ fluid) (f : G × Fin S.Q → K) :
    ∃ f' v r r', boundaryHook φ S p (ubbRule w compr ρ bg u) links t f = some f' ∧ writtenPops φ S p t f = some v ∧
      readPops φ S p (t + 1) f = some r ∧ readPops φ S p (t + 1) f' = some r' ∧
      (∀ y j j', (y, j) ∈ links → S.c j' = -S.c j →
        r' y j' = v y j - ubbVelTerm w (u y j) j * ubbDensity compr ρ bg (v y)) ∧
      (∀ x i, (∀ j, S.c i = -S.c j → (x, j) ∉ links) → r' x i = r x i) :=
  boundaryHook_sem φ hs hc t _ fluid links hl (by
    intro l hl' g g' _ _ hg _
    have : g l.1 = g' l.1 := funext (hg l.1 (hl l hl').1)
    simp only [ubbRule, this]) f

/-- Weights of D2Q9 satisfy the hypotheses. -/
def exWeights : Fin exStencil.Q → ℚ := ![4/9, 1/9, 1/9, 1/9, 1/9, 1/36, 1/36, 1/36, 1/36]
example : (∀ i j, exStencil.c j = -exStencil.c i → exWeights j = exWeights i) ∧
    (∀ a i j, exStencil.c j = mirror a (exStencil.c i) → exWeights j = exWeights i) ∧
    (∀ k l, ∑ j, exWeights j * (exStencil.c j k : ℚ) * (exStencil.c j l : ℚ) = if k = l then 1 / 3 else 0) := by
  decide +kernel

end ubb

/-! ### C31: outflow -/

section outflow
variable {S : Stencil D}

/-- C31: the simple extrapolation outflow gives the boundary-adjacent cell, for each direction coming out of the
boundary, the same population the cell one step away from the boundary (against the outflow normal) reads for that
direction; in any streaming pattern. -/
theorem C31_simple_outflow (φ : Vec D →+ G) {p : String} (hs : Supported S p) (hc : S.InvClosed) (t : ℕ) (n : Vec D)
    (fluid : Set G) (links : List (G × Fin S.Q)) (hl : ∀ l ∈ links, l.1 ∈ fluid ∧ l.1 + φ (S.c l.2) ∉ fluid)
    (htan : ∀ l ∈ links, l.1 + φ (S.c l.2 - n) ∈ fluid) (f : G × Fin S.Q → V) :
    ∃ inv, (∀ i, S.c (inv i) = -S.c i) ∧
    ∃ f' r r', boundaryHook φ S p (simpleOutflowRule φ n inv) links t f = some f' ∧
      readPops φ S p (t + 1) f = some r ∧ readPops φ S p (t + 1) f' = some r' ∧
      (∀ y j j', (y, j) ∈ links → S.c j' = -S.c j → r' y j' = r' (y - φ n) j' ∧ r' y j' = r (y - φ n) j') ∧
      (∀ x i, (∀ j, S.c i = -S.c j → (x, j) ∉ links) → r' x i = r x i) := by
  obtain ⟨inv, -, hcinv⟩ := inv_table hs.2.1 hc
  refine ⟨inv, hcinv, ?_⟩
  obtain ⟨f', w, r, r', h1, h2, h3, h4, h5, h6⟩ := boundaryHook_sem φ hs hc t (simpleOutflowRule φ n inv) fluid links hl
    (fun l hl' g g' _ _ hg _ => hg _ (htan l hl') _) f
  refine ⟨f', r, r', h1, h3, h4, ?_, h6⟩
  intro y j j' hm hj
  have hj' : inv j = j' := hs.2.1 (by rw [hcinv, hj])
  have key : r' y j' = r (y - φ n) j' := by
    rw [h5 y j j' hm hj]
    obtain ⟨ts, a, rd, wr, rd', -, F, -, hw, hr'⟩ := runFacts (G := G) (V := V) hs t
    rw [hw] at h2; cases h2
    rw [hr'] at h3; cases h3
    unfold simpleOutflowRule
    show f (loc φ _ (wr (inv j))) = f (loc φ _ (rd' j'))
    rw [loc_wr φ F, hj', hj, map_sub, map_neg]
    congr 2; abel
  refine ⟨?_, key⟩
  rw [key, h6]
  intro i hi hmem
  apply (hl _ hmem).2
  have : S.c i = S.c j := by rw [← neg_inj, ← hi, hj]
  show y - φ n + φ (S.c i) ∈ fluid
  rw [this]
  have := htan _ hm
  rw [map_sub] at this
  convert this using 1
  show y - φ n + φ (S.c j) = y + (φ (S.c j) - φ n)
  abel

/-- C31: one execution of the extrapolation outflow kernel, pairwise different links, the domain cells being fluid.
Every link writes the interpolation of its stored values, and stores the current population of the domain cell and
the value just used; nothing else changes. -/
theorem outflowKernel_sem (φ : Vec D →+ G) {p ts a rd wr rd'} (hv : S.Valid) (hc : S.InvClosed)
    (F : StepFacts S p ts a rd wr rd') (θ : K) (n : Vec D) (fluid : Set G)
    (es : List ((G × Fin S.Q) × OutflowData K)) (hnd : (es.map Prod.fst).Nodup)
    (hl : ∀ e ∈ es, IsLink φ S fluid e.1) (htan : ∀ e ∈ es, e.1.1 + φ (S.c e.1.2 - n) ∈ fluid)
    {inv : Fin S.Q → Fin S.Q} (hcinv : ∀ i, S.c (inv i) = -S.c i) (f : G × Fin S.Q → K) :
    ∃ f', outflowKernel φ ⟨wr, rd'⟩ θ n es f = some (f', es.map fun e =>
        (e.1, ⟨f (loc φ (e.1.1 + φ (S.c e.1.2 - n)) (wr (inv e.1.2))), outflowInter θ e.2⟩)) ∧
      (∀ e ∈ es, f' (loc φ e.1.1 (rd' (inv e.1.2))) = outflowInter θ e.2) ∧
      (∀ k, (∀ e ∈ es, k ≠ loc φ e.1.1 (rd' (inv e.1.2))) → f' k = f k) := by
  obtain ⟨inv', hidx, hcinv', hinv2, -⟩ := exists_inv hv hc
  obtain rfl : inv' = inv := funext fun i => hv (by rw [hcinv, hcinv'])
  induction es generalizing f with
  | nil => exact ⟨f, rfl, by simp, fun _ _ => rfl⟩
  | cons e es ih =>
    obtain ⟨⟨y, j⟩, d⟩ := e
    rw [List.map_cons, List.nodup_cons] at hnd
    set f1 := Function.update f (loc φ y (rd' (inv' j))) (outflowInter θ d) with hf1
    obtain ⟨f', h1, h2, h3⟩ := ih hnd.2 (fun e he => hl e (List.mem_cons_of_mem _ he))
      (fun e he => htan e (List.mem_cons_of_mem _ he)) f1
    have hread : ∀ z ∈ fluid, ∀ i, f1 (loc φ z (wr i)) = f (loc φ z (wr i)) := by
      intro z hz i
      rw [hf1, Function.update_of_ne]
      intro he
      rw [loc_wr φ F] at he
      obtain ⟨e1, e2⟩ := loc_inj φ F.rd'_inj he
      apply (hl _ List.mem_cons_self).2
      show y + φ (S.c j) ∈ fluid
      rw [← e1, e2, hcinv, map_neg, neg_add_cancel_right]
      exact hz
    have hj : Indexing.inverseDirIndex S j = some (inv' j) := hidx j
    have hfirst : f1 (loc φ (y + φ (S.c j - n)) (wr (inv' j))) = f (loc φ (y + φ (S.c j - n)) (wr (inv' j))) :=
      hread _ (htan _ List.mem_cons_self) _
    have hmap : (es.map fun e => (e.1, (⟨f1 (loc φ (e.1.1 + φ (S.c e.1.2 - n)) (wr (inv' e.1.2))),
        outflowInter θ e.2⟩ : OutflowData K))) = es.map fun e => (e.1,
          ⟨f (loc φ (e.1.1 + φ (S.c e.1.2 - n)) (wr (inv' e.1.2))), outflowInter θ e.2⟩) := by
      refine List.map_congr_left fun e he => ?_
      rw [hread _ (htan e (List.mem_cons_of_mem _ he))]
    refine ⟨f', ?_, ?_, ?_⟩
    · simp only [outflowKernel, hj, Option.bind_eq_bind, Option.bind_some, ← hf1, h1, List.map_cons, hfirst, hmap]
    · intro e he
      rcases List.mem_cons.1 he with rfl | he
      · rw [h3, hf1, Function.update_self]
        intro e' he' heq
        obtain ⟨e1, e2⟩ := loc_inj φ F.rd'_inj heq
        apply hnd.1
        rw [List.mem_map]
        refine ⟨e', he', ?_⟩
        have : inv' j = inv' e'.1.2 := e2
        have h' : j = e'.1.2 := by rw [← hinv2 j, this, hinv2]
        exact Prod.ext e1.symm h'.symm
      · exact h2 e he
    · intro k hk
      rw [h3 k fun e he => hk e (List.mem_cons_of_mem _ he), hf1, Function.update_of_ne]
      exact hk _ List.mem_cons_self

/-- The outflow boundary between step `t` and `t+1` (`boundaryhandling.py:36-39`). -/
def outflowHook (φ : Vec D →+ G) (S : Stencil D) (p : String) (θ : K) (n : Vec D)
    (es : List ((G × Fin S.Q) × OutflowData K)) (t : ℕ) (f : G × Fin S.Q → K) :
    Option ((G × Fin S.Q → K) × List ((G × Fin S.Q) × OutflowData K)) := do
  let ts ← stepTimestep p t
  let ix ← Indexing.make S p ts
  outflowKernel φ ix θ n es f

/-- Executing the outflow boundary after steps `0 … T-1`, where the array before its `t`-th execution is `fs t`
(whatever the flow solver did in between); the result collects the arrays after each execution and the index data. -/
def outflowRun (φ : Vec D →+ G) (S : Stencil D) (p : String) (θ : K) (n : Vec D) (fs : ℕ → G × Fin S.Q → K)
    (es : List ((G × Fin S.Q) × OutflowData K)) : ℕ →
    Option ((ℕ → G × Fin S.Q → K) × List ((G × Fin S.Q) × OutflowData K))
  | 0 => some (fs, es)
  | T + 1 => do
    let s ← outflowRun φ S p θ n fs es T
    let r ← outflowHook φ S p θ n s.2 T (fs T)
    some (Function.update s.1 T r.1, r.2)

/-- The history the documentation describes: the value used in a step is `θ` times the value of the domain cell in the
previous step plus `1-θ` times the boundary value of the previous step; `u₀` is used in the first step, `v t` is the
population of the domain cell in step `t`. -/
def Spec.outflowHistory (θ u₀ : K) (v : ℕ → K) : ℕ → K
  | 0 => u₀
  | t + 1 => θ * v t + (1 - θ) * Spec.outflowHistory θ u₀ v t

/-- The index data of a link after `T` executions. -/
def outflowDataAt (θ : K) (v : ℕ → K) (d : OutflowData K) : ℕ → OutflowData K
  | 0 => d
  | T + 1 => ⟨v T, Spec.outflowHistory θ (θ * d.pdf + (1 - θ) * d.nd) v T⟩

/-- C31: over any number of steps and whatever the solver does in between, the population the cell at an outflow link
reads next follows the documented recursion, started from the two initial values. -/
theorem C31_outflow_history (φ : Vec D →+ G) {p : String} (hs : Supported S p) (hc : S.InvClosed) (θ : K) (n : Vec D)
    (fluid : Set G) (es : List ((G × Fin S.Q) × OutflowData K)) (hnd : (es.map Prod.fst).Nodup)
    (hl : ∀ e ∈ es, e.1.1 ∈ fluid ∧ e.1.1 + φ (S.c e.1.2) ∉ fluid)
    (htan : ∀ e ∈ es, e.1.1 + φ (S.c e.1.2 - n) ∈ fluid) (fs : ℕ → G × Fin S.Q → K) (T : ℕ) :
    ∃ fs' es', ∃ w : ℕ → G → Fin S.Q → K, outflowRun φ S p θ n fs es T = some (fs', es') ∧
      (∀ t, writtenPops φ S p t (fs t) = some (w t)) ∧
      ∀ t < T, ∃ r r', readPops φ S p (t + 1) (fs t) = some r ∧ readPops φ S p (t + 1) (fs' t) = some r' ∧
        (∀ y j d j', ((y, j), d) ∈ es → S.c j' = -S.c j →
          r' y j' = Spec.outflowHistory θ (θ * d.pdf + (1 - θ) * d.nd) (fun s => w s (y + φ (S.c j - n)) j') t) ∧
        (∀ x i, (∀ j, S.c i = -S.c j → (x, j) ∉ es.map Prod.fst) → r' x i = r x i) := by
  obtain ⟨inv, -, hcinv⟩ := inv_table hs.2.1 hc
  have hall := fun t => runFacts (G := G) (V := K) hs t
  choose ts a rd wr rd' e1 F hr hw hr' using hall
  set w : ℕ → G → Fin S.Q → K := fun t x i => fs t (loc φ x (wr t i)) with hwdef
  -- the index data after `T` executions
  have key : ∀ T, ∃ fs', outflowRun φ S p θ n fs es T = some (fs', es.map fun e => (e.1, outflowDataAt θ (fun s => w s (e.1.1 + φ (S.c e.1.2 - n)) (inv e.1.2)) e.2 T)) ∧
      ∀ t < T, ∃ r r', readPops φ S p (t + 1) (fs t) = some r ∧ readPops φ S p (t + 1) (fs' t) = some r' ∧
        (∀ y j d j', ((y, j), d) ∈ es → S.c j' = -S.c j →
          r' y j' = Spec.outflowHistory θ (θ * d.pdf + (1 - θ) * d.nd) (fun s => w s (y + φ (S.c j - n)) j') t) ∧
        (∀ x i, (∀ j, S.c i = -S.c j → (x, j) ∉ es.map Prod.fst) → r' x i = r x i) := by
    intro T
    induction T with
    | zero => exact ⟨fs, by simp [outflowRun, outflowDataAt], by simp⟩
    | succ T ih =>
      obtain ⟨fs', h1, h2⟩ := ih
      set esT : List ((G × Fin S.Q) × OutflowData K) := es.map fun e => (e.1, outflowDataAt θ (fun s => w s (e.1.1 + φ (S.c e.1.2 - n)) (inv e.1.2)) e.2 T) with hesT
      have hfst : esT.map Prod.fst = es.map Prod.fst := by
        rw [hesT, List.map_map]; rfl
      have hlT : ∀ e ∈ esT, IsLink φ S fluid e.1 := by
        intro e he
        obtain ⟨e', he', rfl⟩ := List.mem_map.1 he
        exact hl e' he'
      have htT : ∀ e ∈ esT, e.1.1 + φ (S.c e.1.2 - n) ∈ fluid := by
        intro e he
        obtain ⟨e', he', rfl⟩ := List.mem_map.1 he
        exact htan e' he'
      have hinter : ∀ e ∈ es, outflowInter θ (outflowDataAt θ (fun s => w s (e.1.1 + φ (S.c e.1.2 - n)) (inv e.1.2)) e.2 T) =
          Spec.outflowHistory θ (θ * e.2.pdf + (1 - θ) * e.2.nd)
            (fun s => w s (e.1.1 + φ (S.c e.1.2 - n)) (inv e.1.2)) T := by
        intro e _
        cases T with
        | zero => simp [outflowInter, Spec.outflowHistory, outflowDataAt]; ring
        | succ T => simp [outflowInter, Spec.outflowHistory, outflowDataAt]; ring
      obtain ⟨ts', g1, g2, g3⟩ := stepTimestep_spec hs.1 T
      rw [e1] at g1; cases g1
      obtain ⟨f', q1, q2, q3⟩ := outflowKernel_sem φ hs.2.1 hc (F T) θ n fluid esT (by rw [hfst]; exact hnd) hlT htT
        hcinv (fs T)
      have hmk := make_spec hs hc g2 (F T)
      refine ⟨Function.update fs' T f', ?_, ?_⟩
      · simp only [outflowRun, h1, outflowHook, e1, hmk, Option.bind_eq_bind, Option.bind_some, q1]
        congr 2
        rw [hesT, List.map_map]
        refine List.map_congr_left fun e he => ?_
        show (e.1, (⟨w T _ _, outflowInter θ _⟩ : OutflowData K)) = _
        rw [hinter e he]; rfl
      · intro t ht
        rcases Nat.lt_succ_iff_lt_or_eq.1 ht with ht | rfl
        · obtain ⟨r, r', b1, b2, b3⟩ := h2 t ht
          refine ⟨r, r', b1, ?_, b3⟩
          rw [Function.update_of_ne (by omega)]; exact b2
        · refine ⟨_, _, hr' t (fs t) φ, by rw [Function.update_self]; exact hr' t f' φ, ?_, ?_⟩
          · intro y j d j' hmem hj
            obtain rfl : inv j = j' := hs.2.1 (by rw [hcinv, hj])
            have := q2 _ (List.mem_map_of_mem hmem)
            rw [hinter _ hmem] at this
            exact this
          · intro x i hx
            refine q3 _ fun e he heq => ?_
            obtain ⟨e1, e2⟩ := loc_inj φ (F t).rd'_inj heq
            refine hx e.1.2 (by rw [e2, hcinv]) ?_
            rw [← hfst, List.mem_map]
            exact ⟨e, he, by rw [e1]⟩
  obtain ⟨fs', h1, h2⟩ := key T
  exact ⟨fs', _, w, h1, fun t => hw t _ _, h2⟩

/-- C31: closed form of the recursion: a geometrically weighted mean of all recorded values. -/
theorem C31_outflow_closed_form (θ u₀ : K) (v : ℕ → K) (t : ℕ) :
    Spec.outflowHistory θ u₀ v t =
      (1 - θ) ^ t * u₀ + θ * ∑ s ∈ Finset.range t, (1 - θ) ^ (t - 1 - s) * v s := by
  induction t with
  | zero => simp [Spec.outflowHistory]
  | succ t ih =>
    have : ∑ s ∈ Finset.range (t + 1), (1 - θ) ^ (t + 1 - 1 - s) * v s =
        (1 - θ) * ∑ s ∈ Finset.range t, (1 - θ) ^ (t - 1 - s) * v s + v t := by
      rw [Finset.sum_range_succ, Finset.mul_sum]
      congr 1
      · refine Finset.sum_congr rfl fun s hs => ?_
        have hs := Finset.mem_range.1 hs
        rw [show t + 1 - 1 - s = (t - 1 - s) + 1 by omega, pow_succ]; ring
      · simp
    rw [Spec.outflowHistory, ih, this, pow_succ]; ring

/-- C31: the interpolation weight `c dt/dx` with `c = sqrt(1/3) dx/dt` (`boundaryconditions.py:943,1019,1025`) is
`sqrt(1/3)` whatever `dx` and `dt`, and lies strictly between 0 and 1, so the interpolation is a convex combination. -/
theorem C31_outflow_weight (dx dt : ℝ) (hx : dx ≠ 0) (ht : dt ≠ 0) :
    Real.sqrt (1 / 3) * (dx / dt) * (dt / dx) = Real.sqrt (1 / 3) ∧ 0 < Real.sqrt (1 / 3) ∧
      Real.sqrt (1 / 3) < 1 := by
  refine ⟨by field_simp, Real.sqrt_pos.2 (by norm_num), ?_⟩
  rw [Real.sqrt_lt' one_pos]; norm_num

/-- An outflow at the right end (normal `(1, 0)`) of a half plane `x ≤ 0`. -/
example : ∀ e ∈ [(((0, 5), (⟨4, by decide⟩ : Fin exStencil.Q)), (⟨1, 2⟩ : OutflowData ℚ)),
      (((0, 5), ⟨6, by decide⟩), ⟨3, 4⟩)],
    (e.1.1 ∈ {x : ℤ × ℤ | x.1 ≤ 0} ∧ e.1.1 + exPlane (exStencil.c e.1.2) ∉ {x : ℤ × ℤ | x.1 ≤ 0}) ∧
      e.1.1 + exPlane (exStencil.c e.1.2 - ![1, 0]) ∈ {x : ℤ × ℤ | x.1 ≤ 0} := by
  intro e he
  simp only [List.mem_cons, List.not_mem_nil, or_false] at he
  rcases he with rfl | rfl <;> simp only [Set.mem_ofPred_eq] <;> decide +kernel

end outflow

/-! ### C45: anti-bounce-back -/

section anti
variable {S : Stencil D}

/-- C45: `FixedDensity` keeps an equilibrium at the prescribed density: if the cell's populations are the equilibrium
of `ρ` and `u`, and reversing the velocity amounts to reversing the direction, the population coming back is the
equilibrium value of the reversed direction. -/
theorem C45_fixed_density_fixpoint (h2 : (2 : K) ≠ 0) {Q : ℕ} (eq : (Fin D → K) → Fin Q → K)
    (inv : Fin Q → Fin Q) (heq : ∀ u i, eq (-u) i = eq u (inv i)) (U : (Fin Q → K) → Fin D → K) (y : G) (j : Fin Q)
    (fout fin : G → Fin Q → K) (hf : fout y = eq (U (fout y))) :
    fixedDensityRule (fun f i => (eq (U f) i + eq (-U f) i) / 2) y j fout fin = eq (U (fout y)) (inv j) := by
  unfold fixedDensityRule
  rw [← heq]
  have : fout y j = eq (U (fout y)) j := congrFun hf j
  rw [this]; field_simp; ring

/-- C45: without a velocity field, `DiffusionDirichlet` keeps the resting equilibrium `w C` of the prescribed
concentration, and the mean of what leaves and what comes back is always `w C`. -/
theorem C45_dirichlet_at_rest (w : Fin S.Q → K) (h2 : (2 : K) ≠ 0) (conc : G → Fin S.Q → K) (y : G) (j : Fin S.Q)
    (fout fin : G → Fin S.Q → K) :
    (diffusionDirichletRule w conc none y j fout fin + fout y j) / 2 = w j * conc y j ∧
    (fout y j = w j * conc y j → diffusionDirichletRule w conc none y j fout fin = w j * conc y j) := by
  unfold diffusionDirichletRule
  constructor
  · field_simp; ring
  · intro h; rw [h]; ring

/-- The equilibrium `w C (1 + 3 c·u + 9/2 (c·u)² - 3/2 u²)`. -/
def Spec.advectedEquilibrium (w : Fin S.Q → K) (C : K) (u : Fin D → K) (j : Fin S.Q) : K :=
  w j * C * (1 + 3 * (∑ k, (S.c j k : K) * u k) + 9 / 2 * (∑ k, (S.c j k : K) * u k) ^ 2 -
    3 / 2 * ∑ k, u k * u k)

/-- C45: with a velocity field, `DiffusionDirichlet` does **not** keep the equilibrium of the prescribed concentration:
the code uses `1/3` for the speed of sound (not its square). Witness on D2Q9 with velocity (1/10, 0). -/
theorem C45_dirichlet_with_velocity_wrong :
    ∃ (u : Fin 2 → ℚ) (j j' : Fin exStencil.Q), exStencil.c j' = -exStencil.c j ∧
      diffusionDirichletRule (S := exStencil) (G := ℤ) exWeights (fun _ _ => 1) (some fun _ => u) 0 j
        (fun _ => Spec.advectedEquilibrium exWeights 1 u) (fun _ _ => 0) ≠ Spec.advectedEquilibrium exWeights 1 u j' :=
  ⟨![1 / 10, 0], ⟨3, by decide⟩, ⟨4, by decide⟩, by decide +kernel, by decide +kernel⟩

end anti

end Lbm
